import Verif.Model.Handover

/-! # C91: what is handed over through channels -/

set_option linter.unusedSimpArgs false
set_option linter.unusedSectionVars false

namespace Spout.Handover
open Spec.Handover

/-! ## A discipline that can be checked: after a send the variable is not used until it is set again -/

/-- May the operation be done when the variables `u` refer to objects that were sent away? -/
def okOp (u : List Var) : Op → Bool
  | .make _ => true
  | .rd x => !u.contains x
  | .wr x => !u.contains x
  | .send _ x => !u.contains x
  | .recv _ _ => true
  | .move x q => !u.contains x && !u.contains q && !decide (x = q)

/-- The variables that refer to objects that were sent away, after the operation. -/
def after (u : List Var) : Op → List Var
  | .make x => u.filter (· != x)
  | .send _ x => x :: u
  | .recv _ x => u.filter (· != x)
  | _ => u

/-- The union. -/
def join (a b : List Var) : List Var := a ++ b.filter fun x => !a.contains x

/-- The variables of which a program sends what they refer to. -/
def sends : Prog → List Var
  | .skip => []
  | .op (.send _ x) => [x]
  | .op _ => []
  | .seq p q => join (sends p) (sends q)
  | .alt p q => join (sends p) (sends q)
  | .star p => sends p

/-- Check a program. -/
def chk : Prog → List Var → Option (List Var)
  | .skip, u => some u
  | .op o, u => if okOp u o then some (after u o) else none
  | .seq p q, u => match chk p u with
    | some u' => chk q u'
    | none => none
  | .alt p q, u => match chk p u, chk q u with
    | some a, some b => some (join a b)
    | _, _ => none
  | .star p, u => match chk p (join (sends p) u) with
    | some u' => if u'.all (join (sends p) u).contains then some (join (sends p) u) else none
    | none => none

/-! ## Programs -/

/-- Check a sequence of operations. -/
def okList : List Var → List Op → Prop
  | _, [] => True
  | u, o :: l => okOp u o = true ∧ okList (after u o) l

theorem okOp_mono {u v : List Var} (h : ∀ x ∈ u, x ∈ v) {o : Op} (ho : okOp v o = true) : okOp u o = true := by
  have key : ∀ x, x ∉ v → x ∉ u := fun x hx hu => hx (h x hu)
  cases o <;> simp only [okOp, Bool.and_eq_true, Bool.not_eq_true', List.contains_eq_mem, decide_eq_false_iff_not] at ho ⊢
  · exact key _ ho
  · exact key _ ho
  · exact key _ ho
  · exact ⟨⟨key _ ho.1.1, key _ ho.1.2⟩, ho.2⟩

theorem after_mono {u v : List Var} (h : ∀ x ∈ u, x ∈ v) (o : Op) : ∀ x ∈ after u o, x ∈ after v o := by
  intro x hx
  cases o <;> simp only [after, List.mem_cons, List.mem_filter] at hx ⊢
  · exact ⟨h x hx.1, hx.2⟩
  · exact h x hx
  · exact h x hx
  · exact hx.imp id (h x)
  · exact ⟨h x hx.1, hx.2⟩
  · exact h x hx

theorem okList_mono {w : List Op} : ∀ {u v : List Var}, (∀ x ∈ u, x ∈ v) → okList v w → okList u w := by
  induction w with
  | nil => intro _ _ _ _; trivial
  | cons o w ih => intro u v h ho; exact ⟨okOp_mono h ho.1, ih (after_mono h o) ho.2⟩

theorem foldl_after_mono {w : List Op} : ∀ {u v : List Var}, (∀ x ∈ u, x ∈ v) → ∀ x ∈ w.foldl after u, x ∈ w.foldl after v := by
  induction w with
  | nil => intro u v h; exact h
  | cons o w ih => intro u v h; exact ih (after_mono h o)

theorem okList_append {a b : List Op} : ∀ {u : List Var}, okList u a → okList (a.foldl after u) b → okList u (a ++ b) := by
  induction a with
  | nil => intro u _ hb; exact hb
  | cons o a ih => intro u ha hb; exact ⟨ha.1, ih ha.2 hb⟩

theorem star_words {p q : Prog} {w : List Op} (h : Words q w) (hq : q = .star p) (P : List Op → Prop)
    (h0 : P []) (h1 : ∀ a b, Words p a → P b → P (a ++ b)) : P w := by
  induction h with
  | done => exact h0
  | again ha _ _ ih2 => injection hq with hq; subst hq; exact h1 _ _ ha (ih2 rfl)
  | _ => cases hq

theorem mem_join {a b : List Var} {x : Var} : x ∈ join a b ↔ x ∈ a ∨ x ∈ b := by
  unfold join
  by_cases h : x ∈ a <;> simp [h]

theorem chk_sound (p : Prog) : ∀ (u u' : List Var), chk p u = some u' → ∀ w, Words p w →
    okList u w ∧ ∀ x ∈ w.foldl after u, x ∈ u' := by
  induction p with
  | skip =>
    intro u u' h w hw
    cases hw
    simp only [chk, Option.some.injEq] at h
    subst h
    exact ⟨trivial, fun x hx => hx⟩
  | op o =>
    intro u u' h w hw
    cases hw
    unfold chk at h
    split at h
    · rename_i ho
      injection h with h; subst h
      exact ⟨⟨ho, trivial⟩, fun x hx => hx⟩
    · cases h
  | seq p q ih1 ih2 =>
    intro u u' h w hw
    cases hw with
    | @seq _ _ a b ha hb =>
      unfold chk at h
      split at h
      · rename_i u1 h1
        obtain ⟨k1, k2⟩ := ih1 u u1 h1 a ha
        obtain ⟨k3, k4⟩ := ih2 u1 u' h b hb
        refine ⟨okList_append k1 (okList_mono k2 k3), fun x hx => ?_⟩
        rw [List.foldl_append] at hx
        exact k4 x (foldl_after_mono k2 x hx)
      · cases h
  | alt p q ih1 ih2 =>
    intro u u' h w hw
    unfold chk at h
    split at h
    · rename_i a b h1 h2
      injection h with h; subst h
      cases hw with
      | left hw => exact ⟨(ih1 u a h1 w hw).1, fun x hx => mem_join.2 (Or.inl ((ih1 u a h1 w hw).2 x hx))⟩
      | right hw => exact ⟨(ih2 u b h2 w hw).1, fun x hx => mem_join.2 (Or.inr ((ih2 u b h2 w hw).2 x hx))⟩
    · cases h
  | star p ih =>
    intro u u' h w hw
    unfold chk at h
    generalize hv : join (sends p) u = v at h
    have huv : ∀ x ∈ u, x ∈ v := fun x hx => by rw [← hv]; exact mem_join.2 (Or.inr hx)
    split at h
    · rename_i u1 h1
      split at h
      · rename_i hs
        injection h with h; subst h
        rw [List.all_eq_true] at hs
        have hs : ∀ x ∈ u1, x ∈ v := fun x hx => by simpa using hs x hx
        have key : okList v w ∧ ∀ x ∈ w.foldl after v, x ∈ v := by
          refine star_words hw rfl (fun w => okList v w ∧ ∀ x ∈ w.foldl after v, x ∈ v) ⟨trivial, fun x hx => hx⟩ ?_
          intro a b ha ⟨hb1, hb2⟩
          obtain ⟨k1, k2⟩ := ih v u1 h1 a ha
          have k3 : ∀ x ∈ a.foldl after v, x ∈ v := fun x hx => hs x (k2 x hx)
          refine ⟨okList_append k1 (okList_mono k3 hb1), fun x hx => ?_⟩
          rw [List.foldl_append] at hx
          exact hb2 x (foldl_after_mono k3 x hx)
        exact ⟨okList_mono huv key.1, fun x hx => key.2 x (foldl_after_mono huv x hx)⟩
      · cases h
    · cases h

/-! ## Executions -/

section
variable {C : Type} [DecidableEq C]

theorem get_append {t : List (Ev C)} {i : Nat} {a : Ev C} (b : List (Ev C)) (h : t[i]? = some a) : (t ++ b)[i]? = some a := by
  rw [List.getElem?_append_left (List.getElem?_eq_some_iff.1 h).1]; exact h

theorem get_snoc {t : List (Ev C)} {i : Nat} {a e : Ev C} (h : (t ++ [e])[i]? = some a) :
    t[i]? = some a ∨ (i = t.length ∧ a = e) := by
  by_cases hi : i < t.length
  · rw [List.getElem?_append_left hi] at h; exact Or.inl h
  · have h2 := (List.getElem?_eq_some_iff.1 h).1
    rw [List.length_append, List.length_singleton] at h2
    have : i = t.length := by omega
    subst this
    simp at h
    exact Or.inr ⟨rfl, h.symm⟩

theorem get_last (t : List (Ev C)) (e : Ev C) : (t ++ [e])[t.length]? = some e := by simp

theorem take_snoc {t : List (Ev C)} {i : Nat} (h : i ≤ t.length) (b : List (Ev C)) : (t ++ b).take i = t.take i := by
  rw [List.take_append_of_le_length h]

theorem hb_append {t : List (Ev C)} (e : List (Ev C)) {i j : Nat} (h : HB t i j) : HB (t ++ e) i j := by
  induction h with
  | program h1 h2 h3 h4 => exact .program h1 (get_append e h2) (get_append e h3) h4
  | channel c h1 h2 h3 h4 h5 h6 =>
    refine .channel c h1 (get_append e h2) (get_append e h3) h4 h5 ?_
    rw [take_snoc (Nat.le_of_lt (List.getElem?_eq_some_iff.1 h2).1), take_snoc (Nat.le_of_lt (List.getElem?_eq_some_iff.1 h3).1)]
    exact h6
  | trans _ _ h1 h2 => exact .trans h1 h2

/-- Whatever goroutine `g` does next, the i-th event happens before it. -/
def Before (t : List (Ev C)) (i g : Nat) : Prop :=
  ∃ j e, t[j]? = some e ∧ e.g = g ∧ (i = j ∨ HB t i j)

theorem before_append {t : List (Ev C)} (e : List (Ev C)) {i g : Nat} (h : Before t i g) : Before (t ++ e) i g := by
  obtain ⟨j, a, h1, h2, h3⟩ := h
  exact ⟨j, a, get_append e h1, h2, h3.imp id (hb_append e)⟩

theorem before_next {t : List (Ev C)} {i g : Nat} (h : Before t i g) (e : Ev C) (he : e.g = g) : HB (t ++ [e]) i t.length := by
  obtain ⟨j, a, h1, h2, h3⟩ := h
  have hp : HB (t ++ [e]) j t.length :=
    .program (List.getElem?_eq_some_iff.1 h1).1 (get_append _ h1) (get_last t e) (h2.trans he.symm)
  rcases h3 with rfl | h3
  · exact hp
  · exact .trans (hb_append _ h3) hp

/-- The i-th event accesses `o`. -/
def Accesses (t : List (Ev C)) (i o : Nat) : Prop := ∃ e, t[i]? = some e ∧ e.a.obj = some o

/-- Every object belongs to at most one variable of one goroutine (`own`) or is in one channel, and all accesses to it happen before
what its owner does next, or before it was sent. -/
structure Core (own : Nat → Var → Nat → Prop) (ch : C → List Nat) (n : Nat) (t : List (Ev C)) : Prop where
  fresh : ∀ g x o, own g x o → o < n
  freshCh : ∀ c o, o ∈ ch c → o < n
  freshT : ∀ i o, Accesses t i o → o < n
  uniq : ∀ g x g' x' o, own g x o → own g' x' o → g = g' ∧ x = x'
  excl : ∀ g x o c, own g x o → o ∉ ch c
  nodup : ∀ c, (ch c).Nodup
  apart : ∀ c d o, o ∈ ch c → o ∈ ch d → c = d
  count : ∀ c, t.countP (isSend c) = t.countP (isRecv c) + (ch c).length
  ownHB : ∀ g x o, own g x o → ∀ i, Accesses t i o → Before t i g
  chanHB : ∀ (c : C) (p o : Nat), (ch c)[p]? = some o → ∃ j e, t[j]? = some e ∧ isSend c e = true ∧
    (t.take j).countP (isSend c) = t.countP (isRecv c) + p ∧ ∀ i, Accesses t i o → HB t i j
  race : RaceFree t

variable {own : Nat → Var → Nat → Prop} {ch : C → List Nat} {n : Nat} {t : List (Ev C)}

theorem Core.sub (h : Core own ch n t) {own' : Nat → Var → Nat → Prop} (hs : ∀ g x o, own' g x o → own g x o) : Core own' ch n t where
  fresh g x o ho := h.fresh g x o (hs g x o ho)
  freshCh := h.freshCh
  freshT := h.freshT
  uniq g x g' x' o h1 h2 := h.uniq g x g' x' o (hs _ _ _ h1) (hs _ _ _ h2)
  excl g x o c h1 := h.excl g x o c (hs _ _ _ h1)
  nodup := h.nodup
  apart := h.apart
  count := h.count
  ownHB g x o h1 := h.ownHB g x o (hs _ _ _ h1)
  chanHB := h.chanHB
  race := h.race

theorem accesses_snoc {e : Ev C} {i o : Nat} (h : Accesses (t ++ [e]) i o) : Accesses t i o ∨ (i = t.length ∧ e.a.obj = some o) := by
  obtain ⟨a, h1, h2⟩ := h
  rcases get_snoc h1 with h1 | ⟨hl, rfl⟩
  · exact Or.inl ⟨a, h1, h2⟩
  · exact Or.inr ⟨hl, h2⟩

theorem conflict_obj {a b : Act C} (h : Conflict a b) : ∃ o, a.obj = some o ∧ b.obj = some o := ⟨h.choose, h.choose_spec.1, h.choose_spec.2.1⟩

theorem race_snoc (hr : RaceFree t) (e : Ev C) (he : ∀ i o, Accesses t i o → e.a.obj = some o → HB (t ++ [e]) i t.length) :
    RaceFree (t ++ [e]) := by
  intro i j a b hij ha hb hg hc
  rcases get_snoc hb with hb | ⟨rfl, rfl⟩
  · have ha' : t[i]? = some a := by
      rcases get_snoc ha with ha | ⟨h, -⟩
      · exact ha
      · have := (List.getElem?_eq_some_iff.1 hb).1; omega
    exact hb_append _ (hr i j a b hij ha' hb hg hc)
  · have ha' : t[i]? = some a := by
      rcases get_snoc ha with ha | ⟨h, -⟩
      · exact ha
      · omega
    obtain ⟨o, h1, h2⟩ := conflict_obj hc
    exact he i o ⟨a, ha', h1⟩ h2

theorem isSend_obj {e : Ev C} {o : Nat} (h : e.a.obj = some o) (c : C) : isSend c e = false := by
  unfold isSend
  cases ha : e.a <;> simp_all [Act.obj]

theorem isRecv_obj {e : Ev C} {o : Nat} (h : e.a.obj = some o) (c : C) : isRecv c e = false := by
  unfold isRecv
  cases ha : e.a <;> simp_all [Act.obj]

theorem chanHB_snoc (h : Core own ch n t) (e : Ev C) (c : C) (p o : Nat) (hp : (ch c)[p]? = some o) (hr : isRecv c e = false)
    (hobj : e.a.obj ≠ some o) : ∃ j a, (t ++ [e])[j]? = some a ∧ isSend c a = true ∧
      ((t ++ [e]).take j).countP (isSend c) = (t ++ [e]).countP (isRecv c) + p ∧ ∀ i, Accesses (t ++ [e]) i o → HB (t ++ [e]) i j := by
  obtain ⟨j, a, h1, h2, h3, h4⟩ := h.chanHB c p o hp
  refine ⟨j, a, get_append _ h1, h2, ?_, ?_⟩
  · rw [take_snoc (Nat.le_of_lt (List.getElem?_eq_some_iff.1 h1).1), h3, List.countP_append]
    simp [hr]
  · intro i hi
    rcases accesses_snoc hi with hi | ⟨-, hi⟩
    · exact hb_append _ (h4 i hi)
    · exact absurd hi hobj

/-- An access by the owner. -/
theorem Core.access (h : Core own ch n t) {g : Nat} {x : Var} {o : Nat} (ho : own g x o) {a : Act C} (ha : a.obj = some o) :
    Core own ch n (t ++ [⟨g, a⟩]) where
  fresh := h.fresh
  freshCh := h.freshCh
  freshT i o' hi := by
    rcases accesses_snoc hi with hi | ⟨-, hi⟩
    · exact h.freshT i o' hi
    · have hi : a.obj = some o' := hi
      rw [ha] at hi; injection hi with hi; subst hi
      exact h.fresh g x o ho
  uniq := h.uniq
  excl := h.excl
  nodup := h.nodup
  apart := h.apart
  count c := by
    rw [List.countP_append, List.countP_append]
    simp [isSend_obj (e := ⟨g, a⟩) ha c, isRecv_obj (e := ⟨g, a⟩) ha c, h.count c]
  ownHB g' x' o' ho' i hi := by
    rcases accesses_snoc hi with hi | ⟨rfl, hi2⟩
    · exact before_append _ (h.ownHB g' x' o' ho' i hi)
    · have hi' : a.obj = some o' := by assumption
      rw [ha] at hi'; injection hi' with hi'; subst hi'
      obtain ⟨rfl, -⟩ := h.uniq _ _ _ _ _ ho ho'
      exact ⟨t.length, _, get_last t _, rfl, Or.inl rfl⟩
  chanHB c p o' hp := by
    refine chanHB_snoc h _ c p o' hp (isRecv_obj (e := ⟨g, a⟩) ha c) ?_
    show a.obj ≠ some o'
    rw [ha]
    intro e
    injection e with e; subst e
    exact h.excl g x o c ho (List.mem_of_getElem? hp)
  race := by
    refine race_snoc h.race _ fun i o' hi ho' => ?_
    have ho' : a.obj = some o' := ho'
    rw [ha] at ho'; injection ho' with ho'; subst ho'
    exact before_next (h.ownHB g x o ho i hi) _ rfl

/-- A new object. -/
theorem Core.make (h : Core own ch n t) (g : Nat) (x : Var) :
    Core (fun g' x' o' => (own g' x' o' ∧ ¬ (g' = g ∧ x' = x)) ∨ (g' = g ∧ x' = x ∧ o' = n)) ch (n + 1) (t ++ [⟨g, .wr n⟩]) where
  fresh g' x' o' ho := by
    rcases ho with ⟨ho, -⟩ | ⟨-, -, rfl⟩
    · have := h.fresh _ _ _ ho; omega
    · omega
  freshCh c o ho := by have := h.freshCh c o ho; omega
  freshT i o hi := by
    rcases accesses_snoc hi with hi | ⟨-, hi⟩
    · have := h.freshT i o hi; omega
    · injection hi with hi; omega
  uniq g1 x1 g2 x2 o h1 h2 := by
    rcases h1 with ⟨h1, -⟩ | ⟨rfl, rfl, rfl⟩ <;> rcases h2 with ⟨h2, -⟩ | ⟨rfl, rfl, e⟩
    · exact h.uniq _ _ _ _ _ h1 h2
    · subst e; have := h.fresh _ _ _ h1; omega
    · have := h.fresh _ _ _ h2; omega
    · exact ⟨rfl, rfl⟩
  excl g' x' o c ho hm := by
    rcases ho with ⟨ho, -⟩ | ⟨-, -, rfl⟩
    · exact h.excl _ _ _ _ ho hm
    · have := h.freshCh c _ hm; omega
  nodup := h.nodup
  apart := h.apart
  count c := by
    rw [List.countP_append, List.countP_append]
    simp [isSend, isRecv, h.count c]
  ownHB g' x' o' ho i hi := by
    rcases ho with ⟨ho, -⟩ | ⟨rfl, rfl, rfl⟩
    · rcases accesses_snoc hi with hi | ⟨rfl, hi2⟩
      · exact before_append _ (h.ownHB _ _ _ ho i hi)
      · injection hi2 with hi2; have := h.fresh _ _ _ ho; omega
    · rcases accesses_snoc hi with hi | ⟨rfl, hi2⟩
      · have := h.freshT _ _ hi; omega
      · exact ⟨t.length, _, get_last t _, rfl, Or.inl rfl⟩
  chanHB c p o hp := by
    refine chanHB_snoc h _ c p o hp rfl ?_
    intro e
    injection e with e
    have := h.freshCh c o (List.mem_of_getElem? hp)
    omega
  race := by
    refine race_snoc h.race _ fun i o hi ho => ?_
    injection ho with ho
    have := h.freshT i o hi
    omega

theorem obj_none_send (g : Nat) (c : C) (o o' : Nat) : (⟨g, .send c o⟩ : Ev C).a.obj ≠ some o' := by intro h; cases h
theorem obj_none_recv (g : Nat) (c : C) (o o' : Nat) : (⟨g, .recv c o⟩ : Ev C).a.obj ≠ some o' := by intro h; cases h

/-- The owner sends the object away. -/
theorem Core.send (h : Core own ch n t) {g : Nat} {x : Var} {o : Nat} (ho : own g x o) (c : C) :
    Core (fun g' x' o' => own g' x' o' ∧ ¬ (g' = g ∧ x' = x)) (fun d => if d = c then ch c ++ [o] else ch d) n (t ++ [⟨g, .send c o⟩]) where
  fresh g' x' o' ho' := h.fresh _ _ _ ho'.1
  freshCh d o' hm := by
    split at hm
    · rename_i hd
      rcases List.mem_append.1 hm with hm | hm
      · exact h.freshCh c o' hm
      · rw [List.mem_singleton] at hm; subst hm; exact h.fresh _ _ _ ho
    · exact h.freshCh d o' hm
  freshT i o' hi := by
    rcases accesses_snoc hi with hi | ⟨-, hi⟩
    · exact h.freshT i o' hi
    · exact absurd hi (obj_none_send _ _ _ _)
  uniq g1 x1 g2 x2 o' h1 h2 := h.uniq _ _ _ _ _ h1.1 h2.1
  excl g' x' o' d ho' hm := by
    split at hm
    · rename_i hd
      rcases List.mem_append.1 hm with hm | hm
      · exact h.excl _ _ _ _ ho'.1 hm
      · rw [List.mem_singleton] at hm; subst hm
        obtain ⟨rfl, rfl⟩ := h.uniq _ _ _ _ _ ho ho'.1
        exact ho'.2 ⟨rfl, rfl⟩
    · exact h.excl _ _ _ _ ho'.1 hm
  nodup d := by
    split
    · rw [List.nodup_append]
      refine ⟨h.nodup c, by simp, ?_⟩
      intro a ha b hb hab
      rw [List.mem_singleton] at hb; subst hb; subst hab
      exact h.excl _ _ _ _ ho ha
    · exact h.nodup d
  apart d d' o' h1 h2 := by
    have key : ∀ d'', o ∉ ch d'' := fun d'' => h.excl _ _ _ d'' ho
    split at h1 <;> split at h2
    · rename_i e1 e2; rw [e1, e2]
    · rename_i e1 e2
      rcases List.mem_append.1 h1 with h1 | h1
      · exact e1.trans (h.apart _ _ _ h1 h2)
      · rw [List.mem_singleton] at h1; subst h1; exact absurd h2 (key _)
    · rename_i e1 e2
      rcases List.mem_append.1 h2 with h2 | h2
      · exact (h.apart _ _ _ h1 h2).trans e2.symm
      · rw [List.mem_singleton] at h2; subst h2; exact absurd h1 (key _)
    · exact h.apart _ _ _ h1 h2
  count d := by
    rw [List.countP_append, List.countP_append]
    by_cases hd : d = c
    · subst hd
      simp [isSend, isRecv, h.count d]; omega
    · have hd' : ¬ c = d := fun e => hd e.symm
      simp [isSend, isRecv, hd, hd', h.count d]
  ownHB g' x' o' ho' i hi := by
    rcases accesses_snoc hi with hi | ⟨-, hi⟩
    · exact before_append _ (h.ownHB _ _ _ ho'.1 i hi)
    · exact absurd hi (obj_none_send _ _ _ _)
  chanHB d p o' hp := by
    by_cases hd : d = c
    · subst hd
      simp only [if_true] at hp
      by_cases hpl : p < (ch d).length
      · rw [List.getElem?_append_left hpl] at hp
        exact chanHB_snoc h _ d p o' hp rfl (obj_none_send _ _ _ _)
      · have h2 := (List.getElem?_eq_some_iff.1 hp).1
        rw [List.length_append, List.length_singleton] at h2
        have hpe : p = (ch d).length := by omega
        subst hpe
        simp at hp; subst hp
        refine ⟨t.length, _, get_last t _, by simp [isSend], ?_, ?_⟩
        · rw [take_snoc (Nat.le_refl _), List.take_length, h.count d, List.countP_append]
          simp [isRecv]
        · intro i hi
          rcases accesses_snoc hi with hi | ⟨-, hi⟩
          · exact before_next (h.ownHB _ _ _ ho i hi) _ rfl
          · exact absurd hi (obj_none_send _ _ _ _)
    · rw [if_neg hd] at hp
      exact chanHB_snoc h _ d p o' hp rfl (obj_none_send _ _ _ _)
  race := race_snoc h.race _ fun i o' hi ho' => absurd ho' (obj_none_send _ _ _ _)

/-- A goroutine receives an object. -/
theorem Core.recv (h : Core own ch n t) (g : Nat) (x : Var) {c : C} {o : Nat} {q : List Nat} (hq : ch c = o :: q) :
    Core (fun g' x' o' => (own g' x' o' ∧ ¬ (g' = g ∧ x' = x)) ∨ (g' = g ∧ x' = x ∧ o' = o)) (fun d => if d = c then q else ch d) n
      (t ++ [⟨g, .recv c o⟩]) := by
  have hmem : o ∈ ch c := by rw [hq]; exact List.mem_cons_self
  have hsub : ∀ d o', o' ∈ (if d = c then q else ch d) → o' ∈ ch d := by
    intro d o' hm
    split at hm
    · rename_i hd; subst hd; rw [hq]; exact List.mem_cons_of_mem _ hm
    · exact hm
  have hnot : ∀ d, o ∉ (if d = c then q else ch d) := by
    intro d hm
    split at hm
    · have := h.nodup c; rw [hq] at this; exact (List.nodup_cons.1 this).1 hm
    · rename_i hd; exact hd (h.apart _ _ _ hm hmem)
  have hhb : ∀ i, Accesses (t ++ [⟨g, .recv c o⟩]) i o → HB (t ++ [⟨g, .recv c o⟩]) i t.length := by
    intro i hi
    rcases accesses_snoc hi with hi | ⟨-, hi⟩
    · obtain ⟨j, e, h1, h2, h3, h4⟩ := h.chanHB c 0 o (by rw [hq]; rfl)
      refine .trans (hb_append _ (h4 i hi)) ?_
      refine .channel c (List.getElem?_eq_some_iff.1 h1).1 (get_append _ h1) (get_last t _) h2 (by simp [isRecv]) ?_
      rw [take_snoc (Nat.le_of_lt (List.getElem?_eq_some_iff.1 h1).1), take_snoc (Nat.le_refl _), List.take_length, h3]
      rfl
    · exact absurd hi (obj_none_recv _ _ _ _)
  refine ⟨?_, ?_, ?_, ?_, ?_, ?_, ?_, ?_, ?_, ?_, ?_⟩
  · intro g' x' o' ho'
    rcases ho' with ⟨ho', -⟩ | ⟨-, -, rfl⟩
    · exact h.fresh _ _ _ ho'
    · exact h.freshCh _ _ hmem
  · intro d o' hm; exact h.freshCh d o' (hsub d o' hm)
  · intro i o' hi
    rcases accesses_snoc hi with hi | ⟨-, hi⟩
    · exact h.freshT i o' hi
    · exact absurd hi (obj_none_recv _ _ _ _)
  · intro g1 x1 g2 x2 o' h1 h2
    rcases h1 with ⟨h1, -⟩ | ⟨rfl, rfl, rfl⟩ <;> rcases h2 with ⟨h2, -⟩ | ⟨rfl, rfl, e⟩
    · exact h.uniq _ _ _ _ _ h1 h2
    · subst e; exact absurd hmem (h.excl _ _ _ _ h1)
    · exact absurd hmem (h.excl _ _ _ _ h2)
    · exact ⟨rfl, rfl⟩
  · intro g' x' o' d ho' hm
    rcases ho' with ⟨ho', -⟩ | ⟨-, -, rfl⟩
    · exact h.excl _ _ _ _ ho' (hsub d o' hm)
    · exact hnot d hm
  · intro d
    split
    · have := h.nodup c; rw [hq] at this; exact (List.nodup_cons.1 this).2
    · exact h.nodup d
  · intro d d' o' h1 h2; exact h.apart _ _ _ (hsub _ _ h1) (hsub _ _ h2)
  · intro d
    rw [List.countP_append, List.countP_append]
    by_cases hd : d = c
    · subst hd
      have := h.count d
      rw [hq, List.length_cons] at this
      simp [isSend, isRecv]; omega
    · have hd' : ¬ c = d := fun e => hd e.symm
      simp [isSend, isRecv, hd, hd', h.count d]
  · intro g' x' o' ho' i hi
    rcases ho' with ⟨ho', -⟩ | ⟨rfl, rfl, rfl⟩
    · rcases accesses_snoc hi with hi | ⟨-, hi⟩
      · exact before_append _ (h.ownHB _ _ _ ho' i hi)
      · exact absurd hi (obj_none_recv _ _ _ _)
    · exact ⟨t.length, _, get_last t _, rfl, Or.inr (hhb i hi)⟩
  · intro d p o' hp
    by_cases hd : d = c
    · subst hd
      rw [if_pos rfl] at hp
      obtain ⟨j, e, h1, h2, h3, h4⟩ := h.chanHB d (p + 1) o' (by rw [hq]; simpa using hp)
      refine ⟨j, e, get_append _ h1, h2, ?_, ?_⟩
      · rw [take_snoc (Nat.le_of_lt (List.getElem?_eq_some_iff.1 h1).1), h3, List.countP_append]
        simp [isRecv]; omega
      · intro i hi
        rcases accesses_snoc hi with hi | ⟨-, hi⟩
        · exact hb_append _ (h4 i hi)
        · exact absurd hi (obj_none_recv _ _ _ _)
    · rw [if_neg hd] at hp
      refine chanHB_snoc h _ d p o' hp ?_ (obj_none_recv _ _ _ _)
      have hd' : ¬ c = d := fun e => hd e.symm
      simp [isRecv, hd']
  · exact race_snoc h.race _ fun i o' hi ho' => absurd ho' (obj_none_recv _ _ _ _)

/-- An object goes from one variable to another. -/
theorem Core.move (h : Core own ch n t) (g : Nat) (x q : Var) :
    Core (fun g' x' o' => (own g' x' o' ∧ ¬ (g' = g ∧ x' = x)) ∨ (g' = g ∧ x' = q ∧ own g x o')) ch n t where
  fresh g' x' o' ho := by
    rcases ho with ⟨ho, -⟩ | ⟨-, -, ho⟩ <;> exact h.fresh _ _ _ ho
  freshCh := h.freshCh
  freshT := h.freshT
  uniq g1 x1 g2 x2 o h1 h2 := by
    rcases h1 with ⟨h1, k1⟩ | ⟨rfl, rfl, h1⟩ <;> rcases h2 with ⟨h2, k2⟩ | ⟨rfl, rfl, h2⟩
    · exact h.uniq _ _ _ _ _ h1 h2
    · exact absurd (h.uniq _ _ _ _ _ h1 h2) k1
    · exact absurd (h.uniq _ _ _ _ _ h2 h1) k2
    · exact ⟨rfl, rfl⟩
  excl g' x' o c ho hm := by
    rcases ho with ⟨ho, -⟩ | ⟨-, -, ho⟩ <;> exact h.excl _ _ _ _ ho hm
  nodup := h.nodup
  apart := h.apart
  count := h.count
  ownHB g' x' o' ho i hi := by
    rcases ho with ⟨ho, -⟩ | ⟨rfl, -, ho⟩
    · exact h.ownHB _ _ _ ho i hi
    · exact h.ownHB _ _ _ ho i hi
  chanHB := h.chanHB
  race := h.race

end

/-! ## The invariant -/

/-- Variable `x` of goroutine `g` refers to `o`, and what it refers to has not been sent away. -/
def Own (ths : List Thread) (us : Nat → List Var) (g : Nat) (x : Var) (o : Nat) : Prop :=
  ∃ th, ths[g]? = some th ∧ x ∉ us g ∧ o ∈ th.env x

def Inv (s : St) : Prop :=
  ∃ us : Nat → List Var, (∀ g th, s.threads[g]? = some th → okList (us g) th.code) ∧
    Core (Own s.threads us) s.chans s.objects s.trace

theorem get_set {ths : List Thread} {g g' : Nat} {th th' : Thread} (h : (ths.set g th)[g']? = some th') :
    (g' = g ∧ th' = th) ∨ (g' ≠ g ∧ ths[g']? = some th') := by
  by_cases hg : g' = g
  · subst hg
    have hl := (List.getElem?_eq_some_iff.1 h).1
    rw [List.length_set] at hl
    rw [List.getElem?_set_self hl] at h
    injection h with h
    exact Or.inl ⟨rfl, h.symm⟩
  · rw [List.getElem?_set_ne (fun e => hg e.symm)] at h
    exact Or.inr ⟨hg, h⟩

/-- The unsafe variables after goroutine `g` has done `o`. -/
def upd (us : Nat → List Var) (g : Nat) (o : Op) : Nat → List Var := fun g' => if g' = g then after (us g) o else us g'

theorem code_upd {s : St} {us : Nat → List Var} (hc : ∀ g th, s.threads[g]? = some th → okList (us g) th.code) {g : Nat} {o : Op}
    {l : List Op} {env env' : Var → List Nat} (h : s.threads[g]? = some ⟨o :: l, env⟩) :
    ∀ g' th, (s.threads.set g ⟨l, env'⟩)[g']? = some th → okList (upd us g o g') th.code := by
  intro g' th ht
  rcases get_set ht with ⟨rfl, rfl⟩ | ⟨hg, ht⟩
  · show okList (if g' = g' then after (us g') o else us g') l
    rw [if_pos rfl]
    exact (hc _ _ h).2
  · show okList (if g' = g then _ else us g') th.code
    rw [if_neg hg]
    exact hc _ _ ht

theorem inv_step {s s' : St} (hi : Inv s) (h : Step s s') : Inv s' := by
  obtain ⟨us, hc, core⟩ := hi
  cases h with
  | @make g x l env h =>
    refine ⟨upd us g (.make x), code_upd hc h, ?_⟩
    refine (core.make g x).sub ?_
    rintro g' y o ⟨th, ht, hy, ho⟩
    rcases get_set ht with ⟨rfl, rfl⟩ | ⟨hg, ht⟩
    · have ho : o ∈ setVar env x [s.objects] y := ho
      unfold setVar at ho
      split at ho
      · rename_i e
        rw [List.mem_singleton] at ho
        exact Or.inr ⟨rfl, e, ho⟩
      · rename_i e
        refine Or.inl ⟨⟨_, h, ?_, ho⟩, fun k => e k.2⟩
        unfold upd at hy
        simp only [if_true, after, List.mem_filter, bne_iff_ne, ne_eq, not_and, Decidable.not_not] at hy
        exact fun hm => e (hy hm)
    · refine Or.inl ⟨⟨_, ht, ?_, ho⟩, fun k => hg k.1⟩
      unfold upd at hy
      rw [if_neg hg] at hy
      exact hy
  | @rd g x l env o h ho =>
    refine ⟨upd us g (.rd x), code_upd hc h, ?_⟩
    have hx : x ∉ us g := by
      have := (hc _ _ h).1
      simpa [okOp] using this
    refine (core.access (x := x) (o := o) ⟨_, h, hx, ho⟩ (a := .rd o) rfl).sub ?_
    rintro g' y o' ⟨th, ht, hy, ho'⟩
    rcases get_set ht with ⟨rfl, rfl⟩ | ⟨hg, ht⟩
    · exact ⟨_, h, by simpa [upd, after] using hy, ho'⟩
    · exact ⟨_, ht, by simpa [upd, hg] using hy, ho'⟩
  | @wr g x l env o h ho =>
    refine ⟨upd us g (.wr x), code_upd hc h, ?_⟩
    have hx : x ∉ us g := by
      have := (hc _ _ h).1
      simpa [okOp] using this
    refine (core.access (x := x) (o := o) ⟨_, h, hx, ho⟩ (a := .wr o) rfl).sub ?_
    rintro g' y o' ⟨th, ht, hy, ho'⟩
    rcases get_set ht with ⟨rfl, rfl⟩ | ⟨hg, ht⟩
    · exact ⟨_, h, by simpa [upd, after] using hy, ho'⟩
    · exact ⟨_, ht, by simpa [upd, hg] using hy, ho'⟩
  | @none g x l env h he =>
    rcases h with h | h
    · refine ⟨upd us g (.rd x), code_upd hc h, core.sub ?_⟩
      rintro g' y o' ⟨th, ht, hy, ho'⟩
      rcases get_set ht with ⟨rfl, rfl⟩ | ⟨hg, ht⟩
      · exact ⟨_, h, by simpa [upd, after] using hy, ho'⟩
      · exact ⟨_, ht, by simpa [upd, hg] using hy, ho'⟩
    · refine ⟨upd us g (.wr x), code_upd hc h, core.sub ?_⟩
      rintro g' y o' ⟨th, ht, hy, ho'⟩
      rcases get_set ht with ⟨rfl, rfl⟩ | ⟨hg, ht⟩
      · exact ⟨_, h, by simpa [upd, after] using hy, ho'⟩
      · exact ⟨_, ht, by simpa [upd, hg] using hy, ho'⟩
  | @send g c x l env o h he =>
    refine ⟨upd us g (.send c x), code_upd hc h, ?_⟩
    have hx : x ∉ us g := by
      have := (hc _ _ h).1
      simpa [okOp] using this
    refine (core.send (x := x) (o := o) ⟨_, h, hx, by show o ∈ env x; rw [he]; exact List.mem_singleton_self o⟩ c).sub ?_
    rintro g' y o' ⟨th, ht, hy, ho'⟩
    rcases get_set ht with ⟨rfl, rfl⟩ | ⟨hg, ht⟩
    · have hy : y ≠ x ∧ y ∉ us g' := by simpa [upd, after] using hy
      exact ⟨⟨_, h, hy.2, ho'⟩, fun k => hy.1 k.2⟩
    · exact ⟨⟨_, ht, by simpa [upd, hg] using hy, ho'⟩, fun k => hg k.1⟩
  | @recv g c x l env o q h hq =>
    refine ⟨upd us g (.recv c x), code_upd hc h, ?_⟩
    refine (core.recv g x hq).sub ?_
    rintro g' y o' ⟨th, ht, hy, ho⟩
    rcases get_set ht with ⟨rfl, rfl⟩ | ⟨hg, ht⟩
    · have ho : o' ∈ setVar env x [o] y := ho
      unfold setVar at ho
      split at ho
      · rename_i e
        rw [List.mem_singleton] at ho
        exact Or.inr ⟨rfl, e, ho⟩
      · rename_i e
        refine Or.inl ⟨⟨_, h, ?_, ho⟩, fun k => e k.2⟩
        unfold upd at hy
        simp only [if_true, after, List.mem_filter, bne_iff_ne, ne_eq, not_and, Decidable.not_not] at hy
        exact fun hm => e (hy hm)
    · refine Or.inl ⟨⟨_, ht, ?_, ho⟩, fun k => hg k.1⟩
      unfold upd at hy
      rw [if_neg hg] at hy
      exact hy
  | @move g x q l env h =>
    refine ⟨upd us g (.move x q), code_upd hc h, ?_⟩
    have hx : (x ∉ us g ∧ q ∉ us g) ∧ ¬ x = q := by
      have := (hc _ _ h).1
      simpa [okOp] using this
    refine (core.move g x q).sub ?_
    rintro g' y o' ⟨th, ht, hy, ho⟩
    rcases get_set ht with ⟨rfl, rfl⟩ | ⟨hg, ht⟩
    · replace hy : y ∉ us g' := by simpa [upd, after] using hy
      have ho : o' ∈ setVar (setVar env q (env q ++ env x)) x [] y := ho
      unfold setVar at ho
      split at ho
      · cases ho
      · rename_i e
        split at ho
        · rename_i e2
          subst e2
          rcases List.mem_append.1 ho with ho | ho
          · exact Or.inl ⟨⟨_, h, hx.1.2, ho⟩, fun k => e k.2⟩
          · exact Or.inr ⟨rfl, rfl, _, h, hx.1.1, ho⟩
        · exact Or.inl ⟨⟨_, h, hy, ho⟩, fun k => e k.2⟩
    · exact Or.inl ⟨⟨_, ht, by simpa [upd, hg] using hy, ho⟩, fun k => hg k.1⟩

/-- Checked programs have no race on what they hand over, in any execution. -/
theorem race_free {ps : List Prog} (hchk : ∀ p ∈ ps, (chk p []).isSome = true) {s : St} (h : Reach ps s) : RaceFree s.trace := by
  suffices Inv s by
    obtain ⟨us, -, core⟩ := this
    exact core.race
  induction h with
  | @start ws hl hw =>
    refine ⟨fun _ => [], ?_, ?_⟩
    · intro g th ht
      rw [List.getElem?_map] at ht
      cases hg : ws[g]? with
      | none => rw [hg] at ht; cases ht
      | some w =>
        rw [hg] at ht
        injection ht with ht
        subst ht
        have hlt : g < ps.length := by rw [← hl]; exact (List.getElem?_eq_some_iff.1 hg).1
        have hp : ps[g]? = some ps[g] := List.getElem?_eq_getElem hlt
        have := hchk ps[g] (List.getElem_mem hlt)
        cases hc : chk ps[g] [] with
        | none => rw [hc] at this; cases this
        | some u' => exact (chk_sound _ _ _ hc w (hw g w _ hg hp)).1
    · have hno : ∀ g x o, ¬ Own (ws.map fun w => (⟨w, fun _ => []⟩ : Thread)) (fun _ => []) g x o := by
        rintro g x o ⟨th, ht, -, ho⟩
        rw [List.getElem?_map] at ht
        cases hg : ws[g]? with
        | none => rw [hg] at ht; cases ht
        | some w => rw [hg] at ht; injection ht with ht; subst ht; cases ho
      refine ⟨fun g x o h => absurd h (hno g x o), fun c o h => ?_, ?_, fun g x g' x' o h => absurd h (hno g x o),
        fun g x o c h => absurd h (hno g x o), fun c => List.nodup_nil, fun c d o h => ?_, fun c => rfl,
        fun g x o h => absurd h (hno g x o), ?_, ?_⟩
      · cases h
      · rintro i o ⟨e, h, -⟩; cases h
      · cases h
      · intro c p o h; cases h
      · intro i j a b _ h; cases h
  | step _ st ih => exact inv_step ih st

/-! ## C91 -/

theorem callback_ok (c : Chan) : (chk (callback c) []).isSome = true := rfl
theorem filterWorker_ok : (chk filterWorker []).isSome = true := by decide
theorem writerWorker_ok (i : Nat) : (chk (writerWorker i) []).isSome = true := by
  simp [writerWorker, block, loop, opt, chk, sends, join, okOp, after, make, rd, wr, send, recv]
theorem retryWorker_ok (i : Nat) : (chk (retryWorker i) []).isSome = true := rfl
theorem downWorker_ok (i : Nat) : (chk (downWorker i) []).isSome = true := rfl

/-- **C91 (messages).** No execution of a filter has a race on the bytes of a message, which its workers rewrite, whatever the number of
workers and messages. -/
theorem C91_filter_messages (n : Nat) {s : St} (h : Reach (filter n) s) : RaceFree s.trace := by
  refine race_free ?_ h
  intro p hp
  unfold filter at hp
  rcases List.mem_cons.1 hp with rfl | hp
  · exact callback_ok _
  · rw [(List.mem_replicate.1 hp).2]; exact filterWorker_ok

/-- **C91 (messages and retried chunks).** The same of a writer, for the messages and for the chunks handed to the retry workers. -/
theorem C91_writer_messages (subs n : Nat) {s : St} (h : Reach (writer subs n) s) : RaceFree s.trace := by
  refine race_free ?_ h
  intro p hp
  unfold writer at hp
  rcases List.mem_append.1 hp with hp | hp
  · rw [(List.mem_replicate.1 hp).2]; exact callback_ok _
  · obtain ⟨i, -, hp⟩ := List.mem_flatMap.1 hp
    rcases List.mem_cons.1 hp with rfl | hp
    · exact writerWorker_ok i
    · rw [List.mem_singleton.1 hp]; exact retryWorker_ok i

/-- **C91 (messages).** The same of a downsampler, whose buckets keep references into the messages. -/
theorem C91_downsampler_messages (n : Nat) {s : St} (h : Reach (downsampler n) s) : RaceFree s.trace := by
  refine race_free ?_ h
  intro p hp
  unfold downsampler at hp
  obtain ⟨i, -, hp⟩ := List.mem_flatMap.1 hp
  rcases List.mem_cons.1 hp with rfl | hp
  · exact callback_ok _
  · rw [List.mem_singleton.1 hp]; exact downWorker_ok i

/-! ## The hypotheses are met, and the theorems tell programs apart -/

/-- A filter with one worker: the subscription's goroutine fills a message and sends it, and the worker rewrites it.  The two writes conflict. -/
example : ∃ s : St, Reach (filter 1) s ∧ s.trace = [⟨0, .wr 0⟩, ⟨0, .send .jobs 0⟩, ⟨1, .recv .jobs 0⟩, ⟨1, .wr 0⟩] ∧
    Conflict (.wr 0 : Act Chan) (.wr 0) := by
  refine ⟨_, .step (.step (.step (.step (.start
    (ws := [[.make .msg, .send .jobs .msg], [.recv .jobs .msg, .wr .msg]]) rfl ?_) (.make (g := 0) rfl)) (.send (g := 0) (o := 0) rfl rfl))
    (.recv (g := 1) (o := 0) (q := []) rfl rfl)) (.wr (g := 1) (o := 0) rfl (List.mem_singleton_self 0)), rfl, 0, rfl, rfl, ?_⟩
  · intro i w p hw hp
    match i with
    | 0 =>
      injection hw with hw; injection hp with hp; subst hw; subst hp
      exact .again (.seq (.op _) (.seq (.op _) .skip)) .done
    | 1 =>
      injection hw with hw; injection hp with hp; subst hw; subst hp
      exact .again (.seq (.op _) (.seq (.again (.seq (.right (.op _)) .skip) .done) .skip)) .done
    | i + 2 => cases hw
  · rintro ⟨h, -⟩; cases h

/-- A writer whose worker hands its batch itself to the retry worker, instead of a copy (the mistake that the comment at
writer/writer.go:198-203 warns of), has a race: the retry worker reads what the worker is already resetting. -/
def sharingWriter : List Prog :=
  [callback .jobs,
   block [make .batch, loop [
    opt (block [recv .jobs .msg, loop [rd .msg, wr .batch]]),
    opt (block [loop [rd .batch, opt (send (.retry 0) .batch)], wr .batch])]],
   retryWorker 0]

example : ∃ s : St, Reach sharingWriter s ∧ ¬ RaceFree s.trace := by
  let w : List Op := [.make .batch, .rd .batch, .send (.retry 0) .batch, .wr .batch]
  let r : List Op := [.recv (.retry 0) .buf, .move .buf .queue, .rd .queue]
  let t : List (Ev Chan) := [⟨1, .wr 0⟩, ⟨1, .rd 0⟩, ⟨1, .send (.retry 0) 0⟩, ⟨1, .wr 0⟩, ⟨2, .recv (.retry 0) 0⟩, ⟨2, .rd 0⟩]
  have hr : ∃ s : St, Reach sharingWriter s ∧ s.trace = t := by
    refine ⟨_, .step (.step (.step (.step (.step (.step (.step (.start (ws := [[], w, r]) rfl ?_)
      (.make (g := 1) rfl)) (.rd (g := 1) (o := 0) rfl (List.mem_singleton_self 0))) (.send (g := 1) (o := 0) rfl rfl))
      (.wr (g := 1) (o := 0) rfl (List.mem_singleton_self 0))) (.recv (g := 2) (o := 0) (q := []) rfl rfl)) (.move (g := 2) rfl))
      (.rd (g := 2) (o := 0) rfl (List.mem_singleton_self 0)), rfl⟩
    intro i v p hw hp
    match i with
    | 0 =>
      injection hw with hw; injection hp with hp; subst hw; subst hp
      exact .done
    | 1 =>
      injection hw with hw; injection hp with hp; subst hw; subst hp
      exact .seq (.op _) (.seq (.again (.seq (.right .skip) (.seq (.left (.seq (.again (.seq (.op _) (.seq (.left (.op _)) .skip)) .done)
        (.seq (.op _) .skip))) .skip)) .done) .skip)
    | 2 =>
      injection hw with hw; injection hp with hp; subst hw; subst hp
      exact .again (a := [.recv (.retry 0) .buf, .move .buf .queue]) (.seq (.left (.seq (.op _) (.seq (.op _) .skip))) .skip)
        (.again (.seq (.right (.op _)) .skip) .done)
    | i + 3 => cases hw
  obtain ⟨s, hs, ht⟩ := hr
  refine ⟨s, hs, fun h => ?_⟩
  rw [ht] at h
  have no : ∀ i j, HB t i j → i ≠ 3 := by
    intro i j hb
    induction hb with
    | @program i j a b hij ha hb hg =>
      rintro rfl
      injection ha with ha; subst ha
      match j with
      | 4 => injection hb with hb; subst hb; cases hg
      | 5 => injection hb with hb; subst hb; cases hg
      | j + 6 => cases hb
      | 0 | 1 | 2 | 3 => omega
    | channel c _ ha _ hsd =>
      rintro rfl
      injection ha with ha; subst ha
      cases hsd
    | trans _ _ ih _ => exact ih
  exact no 3 5 (h 3 5 _ _ (by omega) rfl rfl (by decide) ⟨0, rfl, rfl, fun e => by cases e.1⟩) rfl

end Spout.Handover
