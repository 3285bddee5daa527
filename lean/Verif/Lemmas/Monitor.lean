import Verif.Lemmas.Prometheus

set_option linter.unusedSimpArgs false

namespace Spout.Prom

open Spout.Spec

/-! ## Sorting labels -/

theorem strict_perm_eq {α : Type} (key : α → Bytes) : ∀ {l1 l2 : List α}, l1.Perm l2 →
    l1.Pairwise (fun a b => bytesLt (key a) (key b) = true) →
    l2.Pairwise (fun a b => bytesLt (key a) (key b) = true) → l1 = l2
  | [], l2, h, _, _ => by simpa using h.symm
  | x :: xs, [], h, _, _ => by simp at h
  | x :: xs, y :: ys, h, h1, h2 => by
    rw [List.pairwise_cons] at h1 h2
    have hxy : x = y := by
      have hx : x ∈ y :: ys := h.subset (by simp)
      have hy : y ∈ x :: xs := h.symm.subset (by simp)
      rcases List.mem_cons.1 hx with e | e
      · exact e
      · rcases List.mem_cons.1 hy with e' | e'
        · exact e'.symm
        · have a1 := h2.1 x e
          have a2 := h1.1 y e'
          rw [bytesLt_asymm a1] at a2
          cases a2
    subst hxy
    rw [strict_perm_eq key (List.Perm.cons_inv h) h1.2 h2.2]

theorem sort_strict (S : Sorter) {α : Type} (key : α → Bytes) (l : List α) (h : (l.map key).Nodup) :
    (S.sort key l).Pairwise (fun a b => bytesLt (key a) (key b) = true) := by
  have hs := S.sorted key l
  have hn : ((S.sort key l).map key).Nodup := ((S.perm key l).map key).nodup_iff.2 h
  generalize S.sort key l = m at hs hn
  induction m with
  | nil => exact List.Pairwise.nil
  | cons x xs ih =>
    rw [List.pairwise_cons] at hs ⊢
    rw [List.map_cons, List.nodup_cons] at hn
    refine ⟨?_, ih hs.2 hn.2⟩
    intro b hb
    cases hlt : bytesLt (key x) (key b) with
    | true => rfl
    | false =>
      have := bytesLt_total hlt (hs.1 b hb)
      exact absurd (List.mem_map.2 ⟨b, hb, this.symm⟩) hn.1

theorem strict_nodup {α : Type} (key : α → Bytes) (l : List α)
    (h : l.Pairwise (fun a b => bytesLt (key a) (key b) = true)) : (l.map key).Nodup := by
  rw [List.Nodup, List.pairwise_map]
  refine h.imp ?_
  intro a b hab e
  rw [e, bytesLt_irrefl] at hab
  cases hab

theorem sort_of_strict (S : Sorter) {α : Type} (key : α → Bytes) (l : List α)
    (h : l.Pairwise (fun a b => bytesLt (key a) (key b) = true)) : S.sort key l = l :=
  strict_perm_eq key (S.perm key l) (sort_strict S key l (strict_nodup key l h)) h

theorem sort_perm_eq (S : Sorter) {α : Type} (key : α → Bytes) {l1 l2 : List α} (h : l1.Perm l2)
    (hn : (l1.map key).Nodup) : S.sort key l1 = S.sort key l2 := by
  have hn2 : (l2.map key).Nodup := (h.map key).nodup_iff.1 hn
  exact strict_perm_eq key ((S.perm key l1).trans (h.trans (S.perm key l2).symm))
    (sort_strict S key l1 hn) (sort_strict S key l2 hn2)

/-! ## The series key determines name and labels -/

theorem labelsLoop_head_inj {l k : Label} {t r : Bytes} (hl : LabelOK l) (hk : LabelOK k)
    (h : labelText l ++ t = labelText k ++ r) : l = k ∧ t = r := by
  have e1 : labelText l ++ t = l.name ++ EQ :: DQ :: (l.value ++ DQ :: t) := by simp [labelText]
  have e2 : labelText k ++ r = k.name ++ EQ :: DQ :: (k.value ++ DQ :: r) := by simp [labelText]
  rw [e1, e2] at h
  have hlen : l.name.length = k.name.length := by
    have h1 := indexEQ_append l.name (l.value ++ DQ :: t) hl.1
    rw [h, indexEQ_append k.name _ hk.1] at h1
    injection h1 with h1
    exact h1.symm
  obtain ⟨hn, h⟩ := List.append_inj h hlen
  injection h with _ h; injection h with _ h
  have hlen2 : l.value.length = k.value.length := by
    have h1 := indexByte_append l.value t hl.2
    rw [h, indexByte_append k.value _ hk.2] at h1
    injection h1 with h1
    exact h1.symm
  obtain ⟨hv, h⟩ := List.append_inj h hlen2
  injection h with _ h
  cases l; cases k
  simp_all

theorem labelsLoop_inj {l1 l2 : List Label} (h1 : ∀ l ∈ l1, LabelOK l) (h2 : ∀ l ∈ l2, LabelOK l)
    (h : labelsLoop l1 = labelsLoop l2) : l1 = l2 := by
  induction l1 generalizing l2 with
  | nil =>
    cases l2 with
    | nil => rfl
    | cons k ls => exact absurd h.symm (labelsLoop_ne_nil (by simp))
  | cons l ls ih =>
    cases l2 with
    | nil => exact absurd h (labelsLoop_ne_nil (by simp))
    | cons k ks =>
      have hl := h1 l (by simp)
      have hk := h2 k (by simp)
      have ht : ∀ (l : Label) (ls : List Label), labelsLoop (l :: ls)
          = labelText l ++ (if ls = [] then [] else COMMA :: labelsLoop ls) := by
        intro l ls
        cases ls with
        | nil => simp [labelsLoop_one]
        | cons k ls => simp [labelsLoop_cons2]
      rw [ht, ht] at h
      obtain ⟨rfl, h'⟩ := labelsLoop_head_inj hl hk h
      clear h
      have h := h'
      clear h'
      by_cases e1 : ls = []
      · by_cases e2 : ks = []
        · rw [e1, e2]
        · rw [if_pos e1, if_neg e2] at h; cases h
      · by_cases e2 : ks = []
        · rw [if_neg e1, if_pos e2] at h; cases h
        · rw [if_neg e1, if_neg e2] at h
          injection h with _ h
          rw [ih (fun x hx => h1 x (List.mem_cons_of_mem _ hx)) (fun x hx => h2 x (List.mem_cons_of_mem _ hx)) h]

/-- What holds of every accepted metric whose label names are distinct. -/
structure VOK (v : VMetric) : Prop where
  name : NameOK v.name
  labels : ∀ l ∈ v.labels, LabelOK l
  distinct : (v.labels.map (·.name)).Nodup

theorem vKey_inj (S : Sorter) {u v : VMetric} (hu : VOK u) (hv : VOK v) (h : vKey S u = vKey S v) :
    u.name = v.name ∧ S.sort Label.name u.labels = S.sort Label.name v.labels := by
  unfold vKey labelsText at h
  have e : ∀ (n t : Bytes), n ++ ([LBRACE] ++ t ++ [RBRACE]) = n ++ LBRACE :: (t ++ [RBRACE]) := by
    intro n t; simp
  rw [e, e] at h
  have hlen : u.name.length = v.name.length := by
    have h1 := indexSB_append (c := LBRACE) u.name (labelsLoop (S.sort Label.name u.labels) ++ [RBRACE]) hu.name
      (Or.inr rfl)
    rw [h, indexSB_append (c := LBRACE) v.name _ hv.name (Or.inr rfl)] at h1
    injection h1 with h1
    exact h1.symm
  obtain ⟨hn, h⟩ := List.append_inj h hlen
  injection h with _ h
  have h := List.append_inj_left' h rfl
  refine ⟨hn, labelsLoop_inj ?_ ?_ h⟩
  · intro l hl; exact hu.labels l ((S.perm _ _).subset hl)
  · intro l hl; exact hv.labels l ((S.perm _ _).subset hl)

theorem sameSeries_iff (S : Sorter) {u v : VMetric} (hu : VOK u) (hv : VOK v) :
    SameSeries u v ↔ vKey S u = vKey S v := by
  constructor
  · rintro ⟨h1, h2⟩
    unfold vKey
    rw [h1, sort_perm_eq S Label.name h2 hu.distinct]
  · intro h
    obtain ⟨h1, h2⟩ := vKey_inj S hu hv h
    refine ⟨h1, (S.perm Label.name u.labels).symm.trans ?_⟩
    rw [h2]
    exact S.perm _ _

/-! ## The buffer -/

/-- The contents of the buffer lie within its memory. -/
def Buf.WF (b : Buf) : Prop := b.own = none → b.n ≤ b.mem.length

theorem Buf.write_spec (b : Buf) (p : Bytes) (h : b.WF) :
    (b.write p).WF ∧ (b.write p).bytes = b.bytes ++ p ∧ b.n ≤ (b.write p).n ∧
      (b.write p).mem.length = b.mem.length ∧
      (∀ j, j ≤ b.n → (b.write p).mem.take j = b.mem.take j) := by
  cases b with
  | mk mem n own =>
  cases own with
  | some o =>
    refine ⟨?_, rfl, Nat.le_refl _, rfl, fun j _ => rfl⟩
    intro hn
    cases hn
  | none =>
    have hn : n ≤ mem.length := h rfl
    unfold Buf.write
    dsimp only
    by_cases hp : n + p.length ≤ mem.length
    · rw [if_pos hp]
      have hl : (mem.take n).length = n := by simp; omega
      refine ⟨?_, ?_, ?_, ?_, ?_⟩
      · intro _
        simp only [List.length_append, List.length_take, List.length_drop]
        omega
      · unfold Buf.bytes
        dsimp only
        have e : n + p.length = (mem.take n ++ p).length := by simp; omega
        conv => lhs; arg 1; rw [e]
        rw [List.take_left]
      · dsimp only; omega
      · simp only [List.length_append, List.length_take, List.length_drop]
        omega
      · intro j hj
        dsimp only at hj ⊢
        rw [List.append_assoc, List.take_append_of_le_length (by omega), List.take_take]
        congr 1
        omega
    · rw [if_neg hp]
      refine ⟨?_, rfl, Nat.le_refl _, rfl, fun j _ => rfl⟩
      intro hn
      cases hn

theorem Buf.write_fit (mem : Bytes) (n : Nat) (p : Bytes) (h : n + p.length ≤ mem.length) :
    (Buf.write ⟨mem, n, none⟩ p) = ⟨mem.take n ++ p ++ mem.drop (n + p.length), n + p.length, none⟩ := by
  unfold Buf.write
  dsimp only
  rw [if_pos h]

/-! ## Rendering a stored metric -/

theorem map_get_sort (S : Sorter) (m : Metric) :
    (m.sortLabels S).labels.map (·.get m.mem) = S.sort Label.name (view m).labels := by
  have := S.natural (fun l : RLabel => l.get m.mem) Label.name m.labels
  exact this

/-- The writes of `ToBytes` after the labels. -/
def tail2 (m : Metric) (b : Buf) : Buf :=
  let b := b.write ([SP] ++ itoa m.value)
  if m.millis > 0 then b.write ([SP] ++ itoa m.millis) else b

theorem tail2_spec (m : Metric) (b : Buf) (h : b.WF) :
    (tail2 m b).bytes = b.bytes ++ ([SP] ++ itoa m.value) ++ (if m.millis > 0 then [SP] ++ itoa m.millis else []) ∧
      (tail2 m b).mem.length = b.mem.length ∧ ∀ j, j ≤ b.n → (tail2 m b).mem.take j = b.mem.take j := by
  obtain ⟨h1, h2, h3, h4, h5⟩ := Buf.write_spec b ([SP] ++ itoa m.value) h
  unfold tail2
  dsimp only
  by_cases hm : m.millis > 0
  · obtain ⟨k1, k2, k3, k4, k5⟩ := Buf.write_spec (b.write ([SP] ++ itoa m.value)) ([SP] ++ itoa m.millis) h1
    rw [if_pos hm, if_pos hm]
    refine ⟨by rw [k2, h2], by rw [k4, h4], ?_⟩
    intro j hj
    rw [k5 j (by omega), h5 j hj]
  · rw [if_neg hm, if_neg hm]
    exact ⟨by rw [h2]; simp, h4, h5⟩

theorem toBytes_nil (S : Sorter) (m : Metric) (h : m.labels = []) :
    m.toBytes S = ((tail2 m ⟨m.mem, m.nameLen, none⟩).bytes, { m with mem := (tail2 m ⟨m.mem, m.nameLen, none⟩).mem }) := by
  unfold Metric.toBytes
  dsimp only
  have hl : ¬ m.labels.length > 0 := by rw [h]; simp
  rw [if_neg hl]
  rfl

theorem toBytes_cons (S : Sorter) (m : Metric) (h : m.labels ≠ []) :
    m.toBytes S =
      let b := tail2 m (Buf.write ⟨m.mem, m.nameLen, none⟩ (labelsText (S.sort Label.name (view m).labels)))
      (b.bytes, { m.sortLabels S with mem := b.mem }) := by
  have hl : m.labels.length > 0 := by
    cases hh : m.labels with
    | nil => exact absurd hh h
    | cons a b => simp
  have e := map_get_sort S m
  unfold Metric.toBytes
  dsimp only
  rw [if_pos hl]
  dsimp only
  rw [show (m.sortLabels S).mem = m.mem from rfl, e]
  rfl

/-- **What a rendering shows** is the current contents of the metric, with its labels sorted. -/
theorem toBytes_text (S : Sorter) (m : Metric) (h : m.nameLen ≤ m.mem.length) :
    (m.toBytes S).1 = vToBytes S (view m) := by
  have hwf : Buf.WF ⟨m.mem, m.nameLen, none⟩ := fun _ => h
  by_cases hl : m.labels = []
  · rw [toBytes_nil S m hl]
    obtain ⟨h1, -, -⟩ := tail2_spec m _ hwf
    dsimp only
    rw [h1]
    simp [vToBytes, view, hl, Buf.bytes]
  · rw [toBytes_cons S m hl]
    obtain ⟨k1, k2, -, -, -⟩ := Buf.write_spec ⟨m.mem, m.nameLen, none⟩ (labelsText (S.sort Label.name (view m).labels)) hwf
    obtain ⟨h1, -, -⟩ := tail2_spec m _ k1
    dsimp only
    rw [h1, k2]
    have : (view m).labels.length > 0 := by
      cases hh : m.labels with
      | nil => exact absurd hh hl
      | cons a b => simp [view, hh]
    unfold vToBytes
    rw [if_pos this]
    rfl

theorem labelsText_eq (ls : List Label) : labelsText ls = LBRACE :: (labelsLoop ls ++ [RBRACE]) := by
  simp [labelsText]

/-- Rendering a metric whose labels were listed in ascending order does not change it. -/
theorem toBytes_keeps (S : Sorter) {m : Metric} {a : Bytes} {ls : List Label} (h : Shape m a ls) (hasc : Ascending ls) :
    Shape (m.toBytes S).2 a ls ∧ (m.toBytes S).2.value = m.value ∧ (m.toBytes S).2.millis = m.millis := by
  obtain ⟨t, ht⟩ := h.front
  have hnl : m.nameLen ≤ m.mem.length := by rw [h.nameLen, ht]; simp
  have hwf : Buf.WF ⟨m.mem, m.nameLen, none⟩ := fun _ => hnl
  have front_of : ∀ (mem' : Bytes), mem'.take m.nameLen = m.mem.take m.nameLen → ∃ t, mem' = a ++ t := by
    intro mem' he
    refine ⟨mem'.drop m.nameLen, ?_⟩
    conv => lhs; rw [← List.take_append_drop m.nameLen mem']
    rw [he, ht, h.nameLen, List.take_left]
  rcases h.labels with ⟨h1, h2⟩ | ⟨h1, r, h2, h3⟩
  · rw [toBytes_nil S m h2]
    obtain ⟨-, -, k3⟩ := tail2_spec m _ hwf
    refine ⟨⟨h.nameLen, h.nameOK, h.labelsOK, front_of _ (k3 _ (Nat.le_refl _)), Or.inl ⟨h1, h2⟩⟩, rfl, rfl⟩
  · have hne : m.labels ≠ [] := by
      rw [h3]
      cases ls with
      | nil => exact absurd rfl h1
      | cons l ls => simp [layout]
    rw [toBytes_cons S m hne, h.view_labels, sort_of_strict S Label.name ls hasc]
    have hlen : (labelsText ls).length = (labelsLoop ls).length + 2 := by rw [labelsText_eq]; simp
    have hfit : m.nameLen + (labelsText ls).length ≤ m.mem.length := by
      rw [h.nameLen, h2, hlen]; simp
    have hw := Buf.write_fit m.mem m.nameLen (labelsText ls) hfit
    have hmem : m.mem.take m.nameLen ++ labelsText ls ++ m.mem.drop (m.nameLen + (labelsText ls).length) = m.mem := by
      have e : m.mem = (a ++ labelsText ls) ++ r := by rw [h2, labelsText_eq]; simp
      have e1 : m.mem.take m.nameLen = a := by rw [ht, h.nameLen, List.take_left]
      have e2 : m.nameLen + (labelsText ls).length = (a ++ labelsText ls).length := by simp [h.nameLen]
      rw [e1, e2]
      conv => lhs; rw [e]
      rw [List.drop_left, e]
    rw [hmem] at hw
    rw [hw]
    have hwf2 : Buf.WF ⟨m.mem, m.nameLen + (labelsText ls).length, none⟩ := fun _ => hfit
    obtain ⟨-, k2, k3⟩ := tail2_spec m _ hwf2
    have hsort : (m.sortLabels S).labels = m.labels := by
      unfold Metric.sortLabels
      dsimp only
      apply sort_of_strict S (fun l : RLabel => (l.get m.mem).name)
      have hv := h.view_labels
      unfold view at hv
      dsimp only at hv
      have : (m.labels.map (·.get m.mem)).Pairwise (fun a b => bytesLt a.name b.name = true) := by rw [hv]; exact hasc
      rw [List.pairwise_map] at this
      exact this
    refine ⟨⟨h.nameLen, h.nameOK, h.labelsOK, front_of _ (k3 _ (by dsimp only; omega)), Or.inr ⟨h1, ?_⟩⟩, rfl, rfl⟩
    dsimp only
    rw [hsort]
    have hfull := k3 _ (Nat.le_refl _)
    dsimp only at hfull
    generalize (tail2 m ⟨m.mem, m.nameLen + (labelsText ls).length, none⟩).mem = mem' at hfull
    refine ⟨mem'.drop (m.nameLen + (labelsText ls).length), ?_, h3⟩
    conv => lhs; rw [← List.take_append_drop (m.nameLen + (labelsText ls).length) mem']
    rw [hfull]
    have e : m.mem = (a ++ labelsText ls) ++ r := by rw [h2, labelsText_eq]; simp
    have e2 : m.nameLen + (labelsText ls).length = (a ++ labelsText ls).length := by simp [h.nameLen]
    rw [e2]
    conv => lhs; arg 1; rw [e]
    rw [List.take_left, labelsText_eq]
    simp


/-! ## Stored metrics -/

/-- `m` is the stored form of the received metric `v`. -/
structure Stored (S : Sorter) (m : Metric) (v : VMetric) : Prop where
  nl : m.nameLen ≤ m.mem.length
  eq : view m = { v with labels := S.sort Label.name v.labels }
  firm : Ascending v.labels → Shape m v.name v.labels

theorem lineOf_unique {line : Bytes} {v w : VMetric} (h1 : LineOf line v) (h2 : LineOf line w) : v = w := by
  obtain ⟨m, e1, e2⟩ := parse_of_lineOf h1
  obtain ⟨n, e3, e4⟩ := parse_of_lineOf h2
  rw [e1] at e3
  injection e3 with e3; injection e3 with e3
  rw [← e2, ← e4, e3]

theorem lineOf_vok {line : Bytes} {v : VMetric} (h : LineOf line v) (hd : (v.labels.map (·.name)).Nodup) : VOK v := by
  obtain ⟨m, e1, rfl⟩ := parse_of_lineOf h
  obtain ⟨-, -, a, ls, hs, -⟩ := parse_shape e1
  exact ⟨by rw [hs.view_name]; exact hs.nameOK, by rw [hs.view_labels]; exact hs.labelsOK, hd⟩

theorem sortLabels_of_ascending (S : Sorter) (m : Metric) (h : Ascending (view m).labels) : m.sortLabels S = m := by
  unfold Metric.sortLabels
  have : S.sort (fun l : RLabel => (l.get m.mem).name) m.labels = m.labels := by
    apply sort_of_strict S (fun l : RLabel => (l.get m.mem).name)
    unfold Ascending view at h
    dsimp only at h
    rw [List.pairwise_map] at h
    exact h
  rw [this]

theorem metricKey_of_parse (S : Sorter) {line : Bytes} {m : Metric} (h : parseMetric line = .ok (.ok m)) :
    (metricKey S m).1 = vKey S (view m) ∧ Stored S (metricKey S m).2 (view m) := by
  obtain ⟨h1, h2, a, ls, hs, -⟩ := parse_shape h
  obtain ⟨t, ht⟩ := hs.front
  have e := map_get_sort S m
  refine ⟨?_, ?_, ?_, ?_⟩
  · show (m.sortLabels S).mem.take (m.sortLabels S).nameLen ++ labelsText ((m.sortLabels S).labels.map (·.get m.mem)) = _
    rw [e]
    rfl
  · show m.nameLen ≤ m.mem.length
    rw [hs.nameLen, ht]
    simp
  · show view (m.sortLabels S) = _
    unfold view
    rw [show (m.sortLabels S).mem = m.mem from rfl, e]
    rfl
  · intro hasc
    show Shape (m.sortLabels S) _ _
    rw [sortLabels_of_ascending S m hasc, hs.view_name, hs.view_labels]
    exact hs

theorem sort_ascending (S : Sorter) {v : VMetric} (hv : VOK v) : Ascending (S.sort Label.name v.labels) :=
  sort_strict S Label.name v.labels hv.distinct

theorem metricKey_of_stored (S : Sorter) {m : Metric} {v : VMetric} (hv : VOK v) (h : Stored S m v) :
    metricKey S m = (vKey S v, m) := by
  have hasc : Ascending (view m).labels := by rw [h.eq]; exact sort_ascending S hv
  unfold metricKey
  dsimp only
  rw [sortLabels_of_ascending S m hasc]
  have h1 : m.mem.take m.nameLen = v.name := by
    have := h.eq
    unfold view at this
    injection this
  have h2 : m.labels.map (·.get m.mem) = S.sort Label.name v.labels := by
    have := h.eq
    unfold view at this
    injection this
  rw [h1, h2]
  rfl

theorem toBytes_of_stored (S : Sorter) {m : Metric} {v : VMetric} (hv : VOK v) (h : Stored S m v) :
    (m.toBytes S).1 = metricLine { v with labels := S.sort Label.name v.labels } := by
  rw [toBytes_text S m h.nl, h.eq]
  unfold vToBytes metricLine
  dsimp only
  rw [sort_of_strict S Label.name _ (sort_ascending S hv), labelsText, labelsLoop_eq]
  by_cases he : S.sort Label.name v.labels = []
  · simp [he]
  · have hl : (S.sort Label.name v.labels).length > 0 := by
      cases hh : S.sort Label.name v.labels with
      | nil => exact absurd hh he
      | cons a b => simp
    simp [hl, he]

theorem stored_after_toBytes (S : Sorter) {m : Metric} {v : VMetric} (h : Stored S m v)
    (hasc : Ascending v.labels) : Stored S (m.toBytes S).2 v := by
  have hs := h.firm hasc
  obtain ⟨k1, k2, k3⟩ := toBytes_keeps S hs hasc
  obtain ⟨t, ht⟩ := k1.front
  refine ⟨by rw [k1.nameLen, ht]; simp, ?_, fun _ => k1⟩
  have e1 := k1.view_name
  have e2 := k1.view_labels
  have e3 : (view (m.toBytes S).2).value = v.value := by
    show (m.toBytes S).2.value = _
    rw [k2]
    have := h.eq
    unfold view at this
    injection this
  have e4 : (view (m.toBytes S).2).millis = v.millis := by
    show (m.toBytes S).2.millis = _
    rw [k3]
    have := h.eq
    unfold view at this
    injection this
  rw [sort_of_strict S Label.name v.labels hasc]
  generalize view (m.toBytes S).2 = w at *
  cases w; cases v
  simp_all

/-! ## The set -/

/-- The set holds exactly the latest metric of every series of `R`. -/
structure MInv (S : Sorter) (set : MetricSet) (R : List VMetric) : Prop where
  nodup : (set.map (·.1)).Nodup
  entry : ∀ k m, mget set k = some m → ∃ v, Latest R v ∧ k = vKey S v ∧ Stored S m v
  cover : ∀ v ∈ R, (mget set (vKey S v)).isSome

theorem latest_mem {R : List VMetric} {v : VMetric} (h : Latest R v) : v ∈ R := by
  obtain ⟨pre, post, h1, -⟩ := h
  rw [h1]; simp

theorem MInv.empty (S : Sorter) : MInv S [] [] :=
  ⟨by simp, (by intro k m h; rw [mget_nil] at h; cases h), (by intro v hv; cases hv)⟩

theorem latest_append {R vs : List VMetric} {v : VMetric} (h : Latest R v) (hv : ∀ x ∈ vs, ¬ SameSeries x v) :
    Latest (R ++ vs) v := by
  obtain ⟨pre, post, h1, h2⟩ := h
  refine ⟨pre, post ++ vs, by rw [h1]; simp, ?_⟩
  intro x hx
  rcases List.mem_append.1 hx with hx | hx
  · exact h2 x hx
  · exact hv x hx

theorem latest_right {R vs : List VMetric} {v : VMetric} (h : Latest vs v) : Latest (R ++ vs) v := by
  obtain ⟨pre, post, h1, h2⟩ := h
  exact ⟨R ++ pre, post, by rw [h1]; simp, h2⟩

theorem MInv.update (S : Sorter) {set : MetricSet} {R : List VMetric} (hR : ∀ v ∈ R, VOK v)
    {line : Bytes} {m : Metric} (hp : parseMetric line = .ok (.ok m)) (hv : VOK (view m)) (h : MInv S set R) :
    MInv S (update S set m) (R ++ [view m]) := by
  obtain ⟨hk, hst⟩ := metricKey_of_parse S hp
  have hu : Prom.update S set m = mset set (vKey S (view m)) (metricKey S m).2 := by
    rw [← hk]; rfl
  rw [hu]
  refine ⟨mset_nodup _ _ _ h.nodup, ?_, ?_⟩
  · intro k n hn
    rw [mget_mset] at hn
    by_cases hkk : vKey S (view m) = k
    · rw [if_pos hkk] at hn
      injection hn with hn
      subst hn
      exact ⟨view m, ⟨R, [], rfl, by intro x hx; cases hx⟩, hkk.symm, hst⟩
    · rw [if_neg hkk] at hn
      obtain ⟨v, h1, h2, h3⟩ := h.entry k n hn
      refine ⟨v, latest_append h1 ?_, h2, h3⟩
      intro x hx hs
      simp at hx
      subst hx
      exact hkk (((sameSeries_iff S hv (hR v (latest_mem h1))).1 hs).trans h2.symm)
  · intro v hmem
    rw [mget_mset]
    by_cases hkk : vKey S (view m) = vKey S v
    · rw [if_pos hkk]; rfl
    · rw [if_neg hkk]
      rcases List.mem_append.1 hmem with hx | hx
      · exact h.cover v hx
      · simp at hx
        subst hx
        exact absurd rfl hkk

theorem mget_foldl_mset (L : List (Bytes × Metric)) (hn : (L.map (·.1)).Nodup) (set : MetricSet) (k : Bytes) :
    mget (L.foldl (fun s e => mset s e.1 e.2) set) k = (match mget L k with
      | some m => some m
      | none => mget set k) := by
  induction L generalizing set with
  | nil => rfl
  | cons e L ih =>
    rw [List.map_cons, List.nodup_cons] at hn
    rw [List.foldl_cons, ih hn.2, mget_mset, mget_cons]
    by_cases he : e.1 = k
    · have : mget L k = none := by rw [mget_eq_none, ← he]; exact hn.1
      rw [this, if_pos he, if_pos he]
    · rw [if_neg he, if_neg he]

theorem foldl_mset_nodup (L : List (Bytes × Metric)) (set : MetricSet) (h : (set.map (·.1)).Nodup) :
    ((L.foldl (fun s e => mset s e.1 e.2) set).map (·.1)).Nodup := by
  induction L generalizing set with
  | nil => exact h
  | cons e L ih => exact ih _ (mset_nodup _ _ _ h)

theorem mget_perm {L1 L2 : List (Bytes × Metric)} (h : L1.Perm L2) (hn : (L2.map (·.1)).Nodup) (k : Bytes) :
    mget L1 k = mget L2 k := by
  have hn1 : (L1.map (·.1)).Nodup := (h.map (·.1)).nodup_iff.2 hn
  cases h2 : mget L2 k with
  | some m => exact mget_of_mem hn1 (h.symm.subset (mget_mem h2))
  | none =>
    rw [mget_eq_none] at h2 ⊢
    intro hk
    exact h2 ((h.map (·.1)).subset hk)

theorem updateFromSet_eq (S : Sorter) (ord : MapOrder) (set other : MetricSet)
    (hkey : ∀ e ∈ other, metricKey S e.2 = e) :
    updateFromSet S ord set other = (ord.order other).foldl (fun s e => mset s e.1 e.2) set := by
  unfold updateFromSet
  have hall : ∀ e ∈ ord.order other, metricKey S e.2 = e := fun e he => hkey e ((ord.perm other).subset he)
  generalize ord.order other = L at hall
  induction L generalizing set with
  | nil => rfl
  | cons e L ih =>
    rw [List.map_cons, List.foldl_cons, List.foldl_cons]
    have h1 : Prom.update S set e.2 = mset set e.1 e.2 := by
      unfold Prom.update
      rw [hall e (by simp)]
    rw [h1]
    exact ih _ (fun x hx => hall x (List.mem_cons_of_mem _ hx))

theorem MInv.merge (S : Sorter) (ord : MapOrder) {set other : MetricSet} {R vs : List VMetric}
    (hR : ∀ v ∈ R, VOK v) (hvs : ∀ v ∈ vs, VOK v) (h : MInv S set R) (ho : MInv S other vs) :
    MInv S (updateFromSet S ord set other) (R ++ vs) := by
  have hkey : ∀ e ∈ other, metricKey S e.2 = e := by
    intro e he
    obtain ⟨v, h1, h2, h3⟩ := ho.entry e.1 e.2 (mget_of_mem ho.nodup he)
    rw [metricKey_of_stored S (hvs v (latest_mem h1)) h3, ← h2]
  rw [updateFromSet_eq S ord set other hkey]
  have hperm := ord.perm other
  have hn : ((ord.order other).map (·.1)).Nodup := (hperm.map (·.1)).nodup_iff.2 ho.nodup
  have hget : ∀ k, mget ((ord.order other).foldl (fun s e => mset s e.1 e.2) set) k = (match mget other k with
      | some m => some m
      | none => mget set k) := by
    intro k
    rw [mget_foldl_mset _ hn, mget_perm hperm ho.nodup]
  refine ⟨foldl_mset_nodup _ _ h.nodup, ?_, ?_⟩
  · intro k m hm
    rw [hget] at hm
    cases hk : mget other k with
    | some n =>
      rw [hk] at hm
      injection hm with hm
      subst hm
      obtain ⟨v, h1, h2, h3⟩ := ho.entry k _ hk
      exact ⟨v, latest_right h1, h2, h3⟩
    | none =>
      rw [hk] at hm
      dsimp only at hm
      obtain ⟨v, h1, h2, h3⟩ := h.entry k _ hm
      refine ⟨v, latest_append h1 ?_, h2, h3⟩
      intro x hx hs
      have := ho.cover x hx
      rw [(sameSeries_iff S (hvs x hx) (hR v (latest_mem h1))).1 hs, ← h2, hk] at this
      cases this
  · intro v hv
    rw [hget]
    cases hk : mget other (vKey S v) with
    | some n => rfl
    | none =>
      dsimp only
      rcases List.mem_append.1 hv with hv | hv
      · exact h.cover v hv
      · have := ho.cover v hv
        rw [hk] at this
        cases this

/-! ## Messages -/

theorem parseLines_nil_line (S : Sorter) (set : MetricSet) (lines : List Bytes) :
    parseLines S set ([] :: lines) = parseLines S set lines := by
  conv => lhs; unfold parseLines
  rfl

theorem parseLines_cons (S : Sorter) (set : MetricSet) (line : Bytes) (lines : List Bytes) (hl : line ≠ []) :
    parseLines S set (line :: lines) =
      match parseMetric line with
      | .panic => .panic
      | .ok (.error e) => .ok (.error e)
      | .ok (.ok m) => parseLines S (update S set m) lines := by
  have h0 : ¬ line.length = 0 := by
    intro e; exact hl (List.length_eq_zero_iff.1 e)
  conv => lhs; unfold parseLines
  rw [if_neg h0]
  cases parseMetric line with
  | panic => rfl
  | ok x => cases x <;> rfl

theorem parseLines_filter (S : Sorter) (set : MetricSet) (lines : List Bytes) :
    parseLines S set lines = parseLines S set (lines.filter (fun l => l ≠ [])) := by
  induction lines generalizing set with
  | nil => rfl
  | cons line lines ih =>
    by_cases h : line = []
    · subst h
      rw [parseLines_nil_line, ih]
      simp
    · rw [parseLines_cons S set line lines h]
      have e : (line :: lines).filter (fun l => l ≠ []) = line :: lines.filter (fun l => l ≠ []) := by
        simp [h]
      rw [e, parseLines_cons S set line _ h]
      cases parseMetric line with
      | panic => rfl
      | ok x =>
        cases x with
        | error e => rfl
        | ok m => exact ih _

theorem parseLines_ok (S : Sorter) {lines : List Bytes} (hne : ∀ l ∈ lines, l ≠ []) {set set' : MetricSet}
    (h : parseLines S set lines = .ok (.ok set')) :
    ∃ vs, LinesOf lines vs ∧
      ∀ R, (∀ v ∈ R, VOK v) → (∀ v ∈ vs, (v.labels.map (·.name)).Nodup) → MInv S set R → MInv S set' (R ++ vs) := by
  induction lines generalizing set with
  | nil =>
    injection h with h; injection h with h
    subst h
    exact ⟨[], .nil, fun R _ _ hi => by simpa using hi⟩
  | cons line lines ih =>
    rw [parseLines_cons S set line lines (hne line (by simp))] at h
    cases hp : parseMetric line with
    | panic => rw [hp] at h; cases h
    | ok x =>
      cases x with
      | error e => rw [hp] at h; injection h with h; cases h
      | ok m =>
        rw [hp] at h
        dsimp only at h
        obtain ⟨vs, h1, h2⟩ := ih (fun l hl => hne l (List.mem_cons_of_mem _ hl)) h
        refine ⟨view m :: vs, .cons (parse_lineOf hp) h1, ?_⟩
        intro R hR hvs hi
        have hvm : VOK (view m) := lineOf_vok (parse_lineOf hp) (hvs _ (by simp))
        have := h2 (R ++ [view m]) (by
          intro v hv
          rcases List.mem_append.1 hv with hv | hv
          · exact hR v hv
          · simp at hv; rw [hv]; exact hvm) (fun v hv => hvs v (List.mem_cons_of_mem _ hv)) (hi.update S hR hp hvm)
        simpa using this

theorem parseLines_error (S : Sorter) {lines : List Bytes} (hne : ∀ l ∈ lines, l ≠ []) {set : MetricSet} {e : PErr}
    (h : parseLines S set lines = .ok (.error e)) : ∃ l ∈ lines, ¬ ∃ v, LineOf l v := by
  induction lines generalizing set with
  | nil => injection h with h; cases h
  | cons line lines ih =>
    rw [parseLines_cons S set line lines (hne line (by simp))] at h
    cases hp : parseMetric line with
    | panic => rw [hp] at h; cases h
    | ok x =>
      cases x with
      | error e =>
        refine ⟨line, by simp, ?_⟩
        rintro ⟨v, hv⟩
        obtain ⟨m, hm, -⟩ := parse_of_lineOf hv
        rw [hp] at hm; injection hm with hm; cases hm
      | ok m =>
        rw [hp] at h
        dsimp only at h
        obtain ⟨l, h1, h2⟩ := ih (fun l hl => hne l (List.mem_cons_of_mem _ hl)) h
        exact ⟨l, List.mem_cons_of_mem _ h1, h2⟩

theorem msgLines_ne (data : Bytes) : ∀ l ∈ msgLines data, l ≠ [] := by
  intro l hl
  have := (List.mem_filter.1 hl).2
  simpa using this

/-! ## Rendering the set -/

theorem renderKeys_spec (S : Sorter) (ks : List Bytes) (hn : ks.Nodup) (set : MetricSet)
    (hset : (set.map (·.1)).Nodup) (hks : ∀ k ∈ ks, (mget set k).isSome) :
    ∃ set', renderKeys S set ks = .ok
        ((ks.map fun k => (match mget set k with
          | some m => (m.toBytes S).1 ++ [NL]
          | none => [])).flatten, set') ∧
      (set'.map (·.1)).Nodup ∧
      ∀ k, mget set' k = if k ∈ ks then (mget set k).map (fun m => (m.toBytes S).2) else mget set k := by
  induction ks generalizing set with
  | nil => exact ⟨set, rfl, hset, fun k => by simp⟩
  | cons k ks ih =>
    rw [List.nodup_cons] at hn
    cases hk : mget set k with
    | none => have := hks k (by simp); rw [hk] at this; cases this
    | some m =>
      have hget : ∀ k', mget (mset set k (m.toBytes S).2) k' = if k = k' then some (m.toBytes S).2 else mget set k' :=
        fun k' => mget_mset set k k' _
      obtain ⟨set', h1, h2, h3⟩ := ih hn.2 (mset set k (m.toBytes S).2) (mset_nodup _ _ _ hset) (by
        intro k' hk'
        rw [hget]
        by_cases e : k = k'
        · rw [if_pos e]; rfl
        · rw [if_neg e]; exact hks k' (List.mem_cons_of_mem _ hk'))
      refine ⟨set', ?_, h2, ?_⟩
      · unfold renderKeys
        rw [hk]
        dsimp only
        rw [h1]
        simp only [Go.ok_bind, Go.pure_eq, List.map_cons, List.flatten_cons, hk]
        congr 3
        refine congrArg List.flatten (List.map_congr_left ?_)
        intro k' hk'
        rw [hget, if_neg (by intro e; exact hn.1 (e ▸ hk'))]
      · intro k'
        rw [h3 k', hget]
        by_cases e : k = k'
        · subst e
          rw [if_neg hn.1, if_pos rfl, if_pos (by simp), hk]
          rfl
        · rw [if_neg e]
          have : (k' ∈ k :: ks) ↔ k' ∈ ks := by
            rw [List.mem_cons]
            constructor
            · rintro (h | h)
              · exact absurd h.symm e
              · exact h
            · exact Or.inr
          simp only [this]

/-- The rows of a set. -/
def rowOf (set : MetricSet) (k : Bytes) : VMetric :=
  match mget set k with
  | some m => view m
  | none => ⟨[], [], 0, 0⟩

theorem scrape_spec (S : Sorter) (ord : MapOrder) {set : MetricSet} {R : List VMetric} (hR : ∀ v ∈ R, VOK v)
    (h : MInv S set R) :
    ∃ text set', scrape S ord set = .ok (text, set') ∧ Shows text R ∧
      ((∀ v ∈ R, Ascending v.labels) → MInv S set' R) := by
  have hperm := ord.perm set
  have hkeysP : (S.sort id ((ord.order set).map (·.1))).Perm (set.map (·.1)) :=
    (S.perm id _).trans (hperm.map (·.1))
  have hn0 : ((ord.order set).map (·.1)).Nodup := (hperm.map (·.1)).nodup_iff.2 h.nodup
  have hstrict := sorted_strict S _ hn0
  have hnd : (S.sort id ((ord.order set).map (·.1))).Nodup := hkeysP.nodup_iff.2 h.nodup
  obtain ⟨set', h1, h2, h3⟩ := renderKeys_spec S _ hnd set h.nodup (by
    intro k hk
    rw [mget_isSome]
    exact hkeysP.subset hk)
  refine ⟨_, set', h1, ?_, ?_⟩
  · generalize S.sort id ((ord.order set).map (·.1)) = ks at *
    have hrow : ∀ k ∈ ks, ∃ m v, mget set k = some m ∧ rowOf set k = { v with labels := S.sort Label.name v.labels } ∧
        Latest R v ∧ k = vKey S v ∧ Stored S m v := by
      intro k hk
      have hs : (mget set k).isSome := by rw [mget_isSome]; exact hkeysP.subset hk
      cases hm : mget set k with
      | none => rw [hm] at hs; cases hs
      | some m =>
        obtain ⟨v, k1, k2, k3⟩ := h.entry k m hm
        refine ⟨m, v, rfl, ?_, k1, k2, k3⟩
        unfold rowOf
        rw [hm]
        exact k3.eq
    have hser : ∀ k ∈ ks, seriesText (rowOf set k) = k := by
      intro k hk
      obtain ⟨m, v, -, k2, -, k4, -⟩ := hrow k hk
      rw [k2, k4]
      unfold seriesText vKey labelsText
      rw [labelsLoop_eq]
      simp
    refine ⟨ks.map (rowOf set), ?_, ?_, ?_, ?_⟩
    · rw [List.map_map]
      congr 1
      apply List.map_congr_left
      intro k hk
      obtain ⟨m, v, k1, k2, k3, k4, k5⟩ := hrow k hk
      rw [k1]
      show (m.toBytes S).1 ++ [NL] = metricLine (rowOf set k) ++ b!"\n"
      rw [toBytes_of_stored S (hR v (latest_mem k3)) k5, k2]
    · rw [List.pairwise_map]
      refine List.Pairwise.imp_of_mem ?_ hstrict
      intro a b ha hb hab
      rw [hser a ha, hser b hb]
      exact hab
    · intro row hrow'
      obtain ⟨k, hk, rfl⟩ := List.mem_map.1 hrow'
      obtain ⟨m, v, k1, k2, k3, k4, k5⟩ := hrow k hk
      rw [k2]
      exact ⟨sort_ascending S (hR v (latest_mem k3)), v, k3, ⟨rfl, S.perm _ _⟩, rfl, rfl⟩
    · intro v hv
      have hs := h.cover v hv
      have hmem : vKey S v ∈ ks := hkeysP.symm.subset ((mget_isSome _ _).1 hs)
      refine ⟨rowOf set (vKey S v), List.mem_map.2 ⟨_, hmem, rfl⟩, ?_⟩
      obtain ⟨m, w, k1, k2, k3, k4, k5⟩ := hrow _ hmem
      rw [k2]
      obtain ⟨e1, e2⟩ := (sameSeries_iff S (hR w (latest_mem k3)) (hR v hv)).2 k4.symm
      exact ⟨e1, (S.perm _ _).trans e2⟩
  · intro hasc
    have hin : ∀ k, (mget set k).isSome → k ∈ S.sort id ((ord.order set).map (·.1)) := by
      intro k hk
      exact hkeysP.symm.subset ((mget_isSome _ _).1 hk)
    refine ⟨h2, ?_, ?_⟩
    · intro k m hm
      rw [h3] at hm
      by_cases hk : k ∈ S.sort id ((ord.order set).map (·.1))
      · rw [if_pos hk] at hm
        cases hg : mget set k with
        | none => rw [hg] at hm; cases hm
        | some n =>
          rw [hg] at hm
          injection hm with hm
          subst hm
          obtain ⟨v, k1, k2, k3⟩ := h.entry k n hg
          exact ⟨v, k1, k2, stored_after_toBytes S k3 (hasc v (latest_mem k1))⟩
      · rw [if_neg hk] at hm
        exact absurd (hin k (by rw [hm]; rfl)) hk
    · intro v hv
      have hc := h.cover v hv
      rw [h3, if_pos (hin _ hc)]
      cases hg : mget set (vKey S v) with
      | none => rw [hg] at hc; cases hc
      | some n => rfl

/-! ## Histories -/

theorem linesOf_mem {lines : List Bytes} {vs : List VMetric} (h : LinesOf lines vs) {v : VMetric} (hv : v ∈ vs) :
    ∃ l ∈ lines, LineOf l v := by
  induction h with
  | nil => cases hv
  | cons h1 _ ih =>
    rcases List.mem_cons.1 hv with rfl | hv
    · exact ⟨_, by simp, h1⟩
    · obtain ⟨l, hl, k⟩ := ih hv
      exact ⟨l, List.mem_cons_of_mem _ hl, k⟩

theorem receive_cases (S : Sorter) (ord : MapOrder) {set set' : MetricSet} {data : Bytes}
    (h : receiveMetrics S ord set data = .ok set') :
    (∃ vs, LinesOf (msgLines data) vs ∧ ∀ R, (∀ v ∈ R, VOK v) → (∀ v ∈ vs, (v.labels.map (·.name)).Nodup) →
        MInv S set R → MInv S set' (R ++ vs)) ∨
    ((∃ l ∈ msgLines data, ¬ ∃ v, LineOf l v) ∧ set' = set) := by
  unfold receiveMetrics parseMetrics at h
  rw [parseLines_filter, show (splitNL data).filter (fun l => l ≠ []) = msgLines data from rfl] at h
  cases hp : parseLines S [] (msgLines data) with
  | panic => rw [hp] at h; cases h
  | ok x =>
    rw [hp] at h
    cases x with
    | error e =>
      right
      injection h with h
      exact ⟨parseLines_error S (msgLines_ne data) hp, h.symm⟩
    | ok new =>
      left
      injection h with h
      subst h
      obtain ⟨vs, h1, h2⟩ := parseLines_ok S (msgLines_ne data) hp
      refine ⟨vs, h1, ?_⟩
      intro R hR hvs hi
      have hvok : ∀ v ∈ vs, VOK v := by
        intro v hv
        obtain ⟨l, -, hl⟩ := linesOf_mem h1 hv
        exact lineOf_vok hl (hvs v hv)
      have hnew := h2 [] (by intro v hv; cases hv) hvs (MInv.empty S)
      rw [List.nil_append] at hnew
      exact MInv.merge S ord hR hvok hi hnew

theorem linesOf_all {lines : List Bytes} {vs : List VMetric} (h : LinesOf lines vs) : ∀ l ∈ lines, ∃ v, LineOf l v := by
  induction h with
  | nil => intro l hl; cases hl
  | cons h1 _ ih =>
    intro l hl
    rcases List.mem_cons.1 hl with rfl | hl
    · exact ⟨_, h1⟩
    · exact ih l hl

theorem linesOf_unique {lines : List Bytes} {vs ws : List VMetric} (h : LinesOf lines vs) (h' : LinesOf lines ws) :
    vs = ws := by
  induction h generalizing ws with
  | nil => cases h'; rfl
  | cons h1 _ ih =>
    cases h' with
    | cons k1 k2 => rw [lineOf_unique h1 k1, ih k2]

theorem orderly_tail {e : MEv} {evs : List MEv} (h : Orderly (e :: evs)) : Orderly evs := by
  intro pre data ord post he
  exact h (e :: pre) data ord post (by rw [he]; rfl)

theorem run_spec (S : Sorter) (evs : List MEv) (ho : Orderly evs) {set set' : MetricSet} {R0 : List VMetric}
    (hR : ∀ v ∈ R0, VOK v) (hasc : (∃ o, MEv.scrape o ∈ evs) → ∀ v ∈ R0, Ascending v.labels) (hi : MInv S set R0)
    (h : monitorRun S set evs = .ok set') :
    ∃ R, Received evs R ∧ (∀ v ∈ R0 ++ R, VOK v) ∧ MInv S set' (R0 ++ R) := by
  induction evs generalizing set R0 with
  | nil =>
    injection h with h
    subst h
    exact ⟨[], .nil, by simpa using hR, by simpa using hi⟩
  | cons e evs ih =>
    cases e with
    | recv data ord =>
      unfold monitorRun monitorStep at h
      dsimp only at h
      cases hr : receiveMetrics S ord set data with
      | panic => rw [hr] at h; cases h
      | ok set1 =>
        rw [hr] at h
        simp only [Go.ok_bind] at h
        rcases receive_cases S ord hr with ⟨vs, h1, h2⟩ | ⟨⟨l, h1, h2⟩, rfl⟩
        · have hol := ho [] data ord evs rfl
          have hvs : ∀ v ∈ vs, (v.labels.map (·.name)).Nodup ∧ ((∃ o, MEv.scrape o ∈ evs) → Ascending v.labels) := by
            intro v hv
            obtain ⟨l, hl, hlv⟩ := linesOf_mem h1 hv
            exact hol l hl v hlv
          have hvok : ∀ v ∈ R0 ++ vs, VOK v := by
            intro v hv
            rcases List.mem_append.1 hv with hv | hv
            · exact hR v hv
            · obtain ⟨l, hl, hlv⟩ := linesOf_mem h1 hv
              exact lineOf_vok hlv (hvs v hv).1
          obtain ⟨R, k1, k2, k3⟩ := ih (orderly_tail ho) hvok (by
            intro hs v hv
            rcases List.mem_append.1 hv with hv | hv
            · exact hasc (by obtain ⟨o, ho⟩ := hs; exact ⟨o, List.mem_cons_of_mem _ ho⟩) v hv
            · exact (hvs v hv).2 hs) (h2 R0 hR (fun v hv => (hvs v hv).1) hi) h
          exact ⟨vs ++ R, .valid h1 k1, by rw [← List.append_assoc]; exact k2, by rw [← List.append_assoc]; exact k3⟩
        · obtain ⟨R, k1, k2, k3⟩ := ih (orderly_tail ho) hR (by
            intro hs
            exact hasc (by obtain ⟨o, ho⟩ := hs; exact ⟨o, List.mem_cons_of_mem _ ho⟩)) hi h
          exact ⟨R, .invalid l h1 h2 k1, k2, k3⟩
    | scrape ord =>
      unfold monitorRun monitorStep at h
      dsimp only at h
      obtain ⟨text, set1, h1, h2, h3⟩ := scrape_spec S ord hR hi
      rw [h1] at h
      simp only [Go.ok_bind, Go.pure_eq] at h
      have ha := hasc ⟨ord, by simp⟩
      obtain ⟨R, k1, k2, k3⟩ := ih (orderly_tail ho) hR (fun _ => ha) (h3 ha) h
      exact ⟨R, .scrape k1, k2, k3⟩

theorem received_unique {evs : List MEv} {R R' : List VMetric} (h : Received evs R) (h' : Received evs R') : R = R' := by
  induction h generalizing R' with
  | nil => cases h'; rfl
  | scrape _ ih => cases h' with | scrape k => exact ih k
  | valid h1 _ ih =>
    cases h' with
    | valid k1 k2 => rw [linesOf_unique h1 k1, ih k2]
    | invalid l k1 k2 k3 => exact absurd (linesOf_all h1 l k1) k2
  | invalid l h1 h2 _ ih =>
    cases h' with
    | valid k1 k2 => exact absurd (linesOf_all k1 l h1) h2
    | invalid l' k1 k2 k3 => exact ih k3

end Spout.Prom
