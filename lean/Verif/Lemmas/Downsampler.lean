import Verif.Model.Downsampler
import Verif.Lemmas.InfluxTags
import Verif.Lemmas.Timestamps
import Verif.Lemmas.Filter
import Verif.Lemmas.Convert
import Verif.Spec.Series

set_option linter.unusedSimpArgs false

namespace Spout

/-! ## Maps -/

theorem mget_nil (k : Bytes) : mget ([] : List (Bytes × α)) k = none := rfl

theorem mget_cons (e : Bytes × α) (m : List (Bytes × α)) (k : Bytes) :
    mget (e :: m) k = if e.1 = k then some e.2 else mget m k := by
  unfold mget
  by_cases h : e.1 = k
  · simp [List.find?_cons, h]
  · simp [List.find?_cons, h]

theorem mget_eq_none (m : List (Bytes × α)) (k : Bytes) : mget m k = none ↔ k ∉ m.map (·.1) := by
  induction m with
  | nil => simp [mget_nil]
  | cons e m ih =>
    rw [mget_cons]
    by_cases h : e.1 = k
    · simp [h]
    · rw [if_neg h, ih, List.map_cons, List.mem_cons, not_or]
      exact ⟨fun x => ⟨fun y => h y.symm, x⟩, fun x => x.2⟩

theorem mget_isSome (m : List (Bytes × α)) (k : Bytes) : (mget m k).isSome ↔ k ∈ m.map (·.1) := by
  have := mget_eq_none m k
  cases h : mget m k with
  | none => simp [h] at this; simp; exact this
  | some v =>
    rw [h] at this
    simp at this
    simpa using this

theorem mget_mem {m : List (Bytes × α)} {k : Bytes} {v : α} (h : mget m k = some v) : (k, v) ∈ m := by
  induction m with
  | nil => simp [mget_nil] at h
  | cons e m ih =>
    rw [mget_cons] at h
    split at h
    · rename_i hk
      obtain ⟨a, b⟩ := e
      simp only [Option.some.injEq] at h hk
      subst h; subst hk; simp
    · exact List.mem_cons_of_mem _ (ih h)

theorem mget_of_mem {m : List (Bytes × α)} {k : Bytes} {v : α} (hn : (m.map (·.1)).Nodup)
    (h : (k, v) ∈ m) : mget m k = some v := by
  induction m with
  | nil => simp at h
  | cons e m ih =>
    rw [List.map_cons, List.nodup_cons] at hn
    rw [mget_cons]
    rcases List.mem_cons.1 h with rfl | h
    · simp
    · have : e.1 ≠ k := by
        intro hk
        exact hn.1 (hk ▸ List.mem_map_of_mem (f := (·.1)) h)
      rw [if_neg this, ih hn.2 h]

theorem any_key (m : List (Bytes × α)) (k : Bytes) :
    m.any (fun e => e.1 == k) = true ↔ k ∈ m.map (·.1) := by
  simp only [List.any_eq_true, beq_iff_eq, List.mem_map]

theorem mget_mset (m : List (Bytes × α)) (k k' : Bytes) (v : α) :
    mget (mset m k v) k' = if k = k' then some v else mget m k' := by
  unfold mset
  split
  · rename_i h0
    have h := (any_key m k).1 h0
    clear h0
    induction m with
    | nil => simp at h
    | cons e m ih =>
      rw [List.map_cons, mget_cons, mget_cons]
      by_cases he : e.1 = k
      · simp only [he, beq_self_eq_true, if_true]
        by_cases hk : k = k'
        · simp [hk]
        · simp only [hk, if_false]
          by_cases hm : k ∈ m.map (·.1)
          · rw [ih hm, if_neg hk]
          · have : m.map (fun e => if e.1 == k then (k, v) else e) = m := by
              conv => rhs; rw [← List.map_id m]
              apply List.map_congr_left
              intro x hx
              have hxk : ¬ (x.1 == k) = true := by
                intro hxk
                exact hm (beq_iff_eq.1 hxk ▸ List.mem_map_of_mem (f := (·.1)) hx)
              rw [if_neg hxk]; rfl
            rw [this]
      · have hm : k ∈ m.map (·.1) := by
          rw [List.map_cons, List.mem_cons] at h
          exact h.resolve_left (fun x => he x.symm)
        have : (e.1 == k) = false := by simpa using he
        rw [this]
        simp only [Bool.false_eq_true, if_false]
        rw [ih hm]
        by_cases hk : k = k'
        · subst hk; simp [he]
        · simp [hk]
  · rename_i h0
    have h : k ∉ m.map (·.1) := fun x => h0 ((any_key m k).2 x)
    clear h0
    induction m with
    | nil => simp [mget_cons, mget_nil]
    | cons e m ih =>
      rw [List.map_cons, List.mem_cons, not_or] at h
      rw [List.cons_append, mget_cons, mget_cons, ih h.2]
      by_cases he : e.1 = k'
      · have : k ≠ k' := fun x => h.1 (x.trans he.symm)
        simp [he, this]
      · simp [he]

theorem mset_keys (m : List (Bytes × α)) (k : Bytes) (v : α) :
    (mset m k v).map (·.1) = if k ∈ m.map (·.1) then m.map (·.1) else m.map (·.1) ++ [k] := by
  unfold mset
  by_cases h : k ∈ m.map (·.1)
  · rw [if_pos ((any_key m k).2 h), if_pos h, List.map_map]
    apply List.map_congr_left
    intro e _
    by_cases he : e.1 = k
    · simp [he]
    · simp [he]
  · rw [if_neg (fun x => h ((any_key m k).1 x)), if_neg h]
    simp

theorem mset_nodup (m : List (Bytes × α)) (k : Bytes) (v : α) (h : (m.map (·.1)).Nodup) :
    ((mset m k v).map (·.1)).Nodup := by
  rw [mset_keys]
  split
  · exact h
  · rename_i hk
    rw [List.nodup_append]
    refine ⟨h, by simp, ?_⟩
    intro a ha b hb
    simp only [List.mem_singleton] at hb
    subst hb
    exact fun x => hk (x ▸ ha)

theorem mem_mset_keys (m : List (Bytes × α)) (k k' : Bytes) (v : α) :
    k' ∈ (mset m k v).map (·.1) ↔ k' = k ∨ k' ∈ m.map (·.1) := by
  rw [mset_keys]
  split
  · rename_i h
    constructor
    · exact Or.inr
    · rintro (rfl | h')
      · exact h
      · exact h'
  · rw [List.mem_append, List.mem_singleton]; exact Or.comm

/-! ## The fields of a line -/

/-- One `name=value` item: the name as written, whether the value was quoted, and the
value after unquoting/unescaping. -/
structure Item where
  name : Bytes
  quoted : Bool
  value : Bytes
  deriving DecidableEq, Repr

/-- Structural reading of the part of a line after the series key. -/
def readFields : (fuel : Nat) → Bytes → List Item × Option DErr
  | 0, _ => ([], none)
  | _ + 1, [] => ([], none)
  | fuel + 1, _ :: raw =>
    match tokL b!"=" raw with
    | (_, []) => ([], some .invalidField)
    | (name, c :: raw) =>
      if c ≠ EQ then ([], some .invalidField)
      else match raw with
        | [] => ([], some .missingValue)
        | d :: ds =>
          if d = DQ then
            match ds with
            | [] => ([], some (.badString .tooShort))
            | _ :: _ =>
              match quotSplit d ds with
              | none => ([], some (.badString .missingTrailing))
              | some (a, r, e) =>
                let (is, err) := readFields fuel r
                (⟨name, true, if e then unescL a else a⟩ :: is, err)
          else
            let (is, err) := readFields fuel (tokL b!"," (d :: ds)).2
            (⟨name, false, unescL (tokL b!"," (d :: ds)).1⟩ :: is, err)

/-- Adding one item to the fields. -/
def addItem {fo : FloatOps} (fs : Fields fo) (it : Item) : Fields fo × List DErr :=
  setField fs it.name (if it.quoted then .str it.value else newFieldValue fo it.value) it.value

/-- Adding items in order. -/
def addItems {fo : FloatOps} : Fields fo → List Item → Fields fo × List DErr
  | fs, [] => (fs, [])
  | fs, it :: is =>
    let (fs, e) := addItem fs it
    let (fs, es) := addItems fs is
    (fs, e ++ es)

theorem tokL_snd_length (til s : Bytes) : (tokL til s).2.length ≤ s.length := by
  have := tokL_length til s; omega

theorem updateFields_eq {fo : FloatOps} (fuel : Nat) (fs : Fields fo) (raw : Bytes)
    (h : raw.length < fuel) :
    updateFields fuel fs raw = .ok ((addItems fs (readFields fuel raw).1).1,
      (addItems fs (readFields fuel raw).1).2 ++ (readFields fuel raw).2.toList) := by
  induction fuel generalizing fs raw with
  | zero => omega
  | succ fuel ih =>
    rw [updateFields]
    match raw, h with
    | [], _ => simp [readFields, addItems]
    | s :: raw, h =>
      rw [if_neg (by simp)]
      simp only [sliceFrom, List.length_cons, Nat.le_add_left, if_true, Go.ok_bind, List.drop_succ_cons,
        List.drop_zero, tokenEscaped_eq]
      have hl := tokL_snd_length b!"=" raw
      have h : raw.length < fuel := by simpa using h
      rw [readFields]
      cases hT : tokL b!"=" raw with
      | mk name rest =>
        rw [hT] at hl
        dsimp only at hl ⊢
        match rest, hl with
        | [], _ => simp [addItems]
        | c :: rest, hl =>
          simp only [List.length_cons] at hl ⊢
          rw [if_neg (by omega)]
          simp only [idx, List.getElem?_cons_zero, Go.ok_bind]
          by_cases hc : c = EQ
          · subst hc
            simp only [ne_eq, not_true_eq_false, if_false, Nat.le_add_left, if_true, Go.ok_bind,
              List.drop_succ_cons, List.drop_zero]
            match rest, hl with
            | [], _ => simp [addItems]
            | d :: ds, hl =>
              simp only [List.length_cons] at hl ⊢
              rw [if_neg (by omega)]
              simp only [List.getElem?_cons_zero, Go.ok_bind]
              by_cases hd : d = DQ
              · subst hd
                simp only [if_true]
                rw [quotedString_eq]
                match ds, hl with
                | [], _ => simp [addItems]
                | d2 :: ds, hl =>
                  simp only [ne_eq, not_true_eq_false, if_false, Go.ok_bind]
                  cases hq : quotSplit DQ (d2 :: ds) with
                  | none => simp [addItems]
                  | some v =>
                    obtain ⟨a, r, e⟩ := v
                    have hr := quotSplit_rem_length _ _ _ _ _ hq
                    simp only [List.length_cons] at hl hr
                    simp only []
                    rw [ih _ r (by omega)]
                    simp [addItems, addItem]
              · rw [if_neg hd, if_neg hd, tokenU_eq]
                have hr := tokL_snd_length b!"," (d :: ds)
                simp only [List.length_cons] at hl hr
                simp only [Go.ok_bind]
                rw [ih _ _ (by omega)]
                simp [addItems, addItem]
          · simp [hc, addItems]

theorem readFields_fuel (f1 f2 : Nat) (raw : Bytes) (h1 : raw.length < f1) (h2 : raw.length < f2) :
    readFields f1 raw = readFields f2 raw := by
  induction f1 generalizing f2 raw with
  | zero => omega
  | succ f1 ih =>
    obtain ⟨f2, rfl⟩ : ∃ f, f2 = f + 1 := ⟨f2 - 1, by omega⟩
    match raw, h1, h2 with
    | [], _, _ => simp [readFields]
    | s :: raw, h1, h2 =>
      have hl := tokL_snd_length b!"=" raw
      have h1 : raw.length < f1 := by simpa using h1
      have h2 : raw.length < f2 := by simpa using h2
      rw [readFields, readFields]
      cases hT : tokL b!"=" raw with
      | mk name rest =>
        rw [hT] at hl
        dsimp only at hl ⊢
        match rest, hl with
        | [], _ => rfl
        | c :: rest, hl =>
          simp only [List.length_cons] at hl ⊢
          by_cases hc : c = EQ
          · subst hc
            simp only [ne_eq, not_true_eq_false, if_false]
            match rest, hl with
            | [], _ => rfl
            | d :: ds, hl =>
              simp only [List.length_cons] at hl ⊢
              by_cases hd : d = DQ
              · subst hd
                simp only [if_true]
                match ds, hl with
                | [], _ => rfl
                | d2 :: ds, hl =>
                  simp only []
                  cases hq : quotSplit DQ (d2 :: ds) with
                  | none => rfl
                  | some v =>
                    obtain ⟨a, r, e⟩ := v
                    have hr := quotSplit_rem_length _ _ _ _ _ hq
                    simp only [List.length_cons] at hl hr
                    simp only []
                    rw [ih f2 r (by omega) (by omega)]
              · have hr := tokL_snd_length b!"," (d :: ds)
                simp only [List.length_cons] at hl hr
                simp only [hd, if_false]
                rw [ih f2 _ (by omega) (by omega)]
          · simp [hc]

/-- Reading of a whole line (without timestamp): series key, items, structural error. -/
def readLine (line : Bytes) : Bytes × List Item × Option DErr :=
  ((tokL b!" " line).1, readFields ((tokL b!" " line).2.length + 1) (tokL b!" " line).2)

theorem addLine_eq {fo : FloatOps} (b : Bucket fo) (line : Bytes) :
    b.addLine line = .ok (
      match mget b.lines (readLine line).1 with
      | some fields =>
        ({ b with lines := mset b.lines (readLine line).1 (addItems fields (readLine line).2.1).1 },
          (addItems fields (readLine line).2.1).2 ++ (readLine line).2.2.toList)
      | none =>
        if (addItems ([] : Fields fo) (readLine line).2.1).2 ++ (readLine line).2.2.toList = [] then
          ({ b with lines := mset b.lines (readLine line).1 (addItems [] (readLine line).2.1).1 }, [])
        else (b, (addItems ([] : Fields fo) (readLine line).2.1).2 ++ (readLine line).2.2.toList)) := by
  unfold Bucket.addLine readLine
  simp only [tokenEscaped_eq, Go.ok_bind]
  cases mget b.lines (tokL b!" " line).1 with
  | some fields =>
    simp only []
    rw [updateFields_eq _ _ _ (by omega)]
    simp
  | none =>
    simp only []
    rw [updateFields_eq _ _ _ (by omega)]
    simp only [Go.ok_bind]
    split
    · rename_i h
      rw [if_neg (by intro h'; rw [h'] at h; simp at h)]; rfl
    · rename_i h
      rw [if_pos (by
        apply List.eq_nil_of_length_eq_zero; omega)]
      rfl

theorem addLine_safe {fo : FloatOps} (b : Bucket fo) (line : Bytes) : Go.Safe (b.addLine line) := by
  rw [addLine_eq]; exact Go.safe_ok _

/-! ## Aggregation -/

open Spec

def Item.sample (it : Item) : Sample := ⟨it.quoted, it.value⟩

/-- State of one field after a sample. -/
def valStep {fo : FloatOps} (v : Option (FieldValue fo)) (s : Sample) : Option (FieldValue fo) :=
  match v with
  | none => some (if s.quoted then .str s.content else newFieldValue fo s.content)
  | some v => some (v.update s.content).1

theorem addItem_mget {fo : FloatOps} (fs : Fields fo) (it : Item) (n : Bytes) :
    mget (addItem fs it).1 n = if it.name = n then valStep (mget fs n) it.sample else mget fs n := by
  unfold addItem setField
  cases h : mget fs it.name with
  | none =>
    simp only [mget_mset]
    by_cases hn : it.name = n
    · subst hn; simp only [valStep, h, Item.sample, if_true]; rfl
    · simp [hn]
  | some v =>
    simp only [mget_mset]
    by_cases hn : it.name = n
    · subst hn; simp [valStep, h, Item.sample]
    · simp [hn]

theorem addItem_nodup {fo : FloatOps} (fs : Fields fo) (it : Item) (h : (fs.map (·.1)).Nodup) :
    ((addItem fs it).1.map (·.1)).Nodup := by
  unfold addItem setField
  cases mget fs it.name <;> exact mset_nodup _ _ _ h

theorem addItems_mget {fo : FloatOps} (fs : Fields fo) (is : List Item) (n : Bytes) :
    mget (addItems fs is).1 n =
      ((is.filter (fun it => it.name = n)).map Item.sample).foldl valStep (mget fs n) := by
  induction is generalizing fs with
  | nil => rfl
  | cons it is ih =>
    simp only [addItems]
    rw [ih, addItem_mget]
    by_cases h : it.name = n
    · simp [h]
    · simp [h]

theorem addItems_nodup {fo : FloatOps} (fs : Fields fo) (is : List Item) (h : (fs.map (·.1)).Nodup) :
    ((addItems fs is).1.map (·.1)).Nodup := by
  induction is generalizing fs with
  | nil => exact h
  | cons it is ih => simp only [addItems]; exact ih _ (addItem_nodup _ _ h)

/-- Final value of a field from its samples. -/
def fieldVal (fo : FloatOps) (ss : List Sample) : Option (FieldValue fo) := ss.foldl valStep none

theorem foldl_valStep_some {fo : FloatOps} (v : FieldValue fo) (ss : List Sample) :
    ∃ w, ss.foldl valStep (some v) = some w := by
  induction ss generalizing v with
  | nil => exact ⟨v, rfl⟩
  | cons s ss ih => exact ih _

theorem fieldVal_isSome (fo : FloatOps) (ss : List Sample) : (fieldVal fo ss).isSome ↔ ss ≠ [] := by
  cases ss with
  | nil => simp [fieldVal]
  | cons s ss =>
    obtain ⟨w, hw⟩ := foldl_valStep_some (fo := fo)
      (if s.quoted then .str s.content else newFieldValue fo s.content) ss
    have : fieldVal fo (s :: ss) = some w := hw
    simp [this]

theorem quote_eq (s : Bytes) : escapeQuotedString s = quote s := by
  rw [escapeQuotedString_eq]
  have : ∀ s, escL [DQ] s = s.flatMap (fun b => if b = DQ then [BS, DQ] else [b]) := by
    intro s
    induction s with
    | nil => rfl
    | cons c cs ih =>
      simp only [escL, List.mem_singleton, List.flatMap_cons]
      split
      · rename_i h; simp [ih, h]
      · simp [ih]
  rw [this]; rfl

theorem foldl_str {fo : FloatOps} (b : Bytes) (ss : List Sample) :
    ss.foldl valStep (some (FieldValue.str b : FieldValue fo)) =
      some (.str (((ss.getLast?).map (·.content)).getD b)) := by
  induction ss generalizing b with
  | nil => rfl
  | cons s ss ih =>
    simp only [List.foldl_cons, valStep, FieldValue.update]
    rw [ih]
    cases ss with
    | nil => simp
    | cons t ss => simp [List.getLast?_cons_cons, List.getLast?_eq_some_getLast]

theorem foldl_raw {fo : FloatOps} (b : Bytes) (ss : List Sample) :
    ss.foldl valStep (some (FieldValue.raw b : FieldValue fo)) =
      some (.raw (((ss.getLast?).map (·.content)).getD b)) := by
  induction ss generalizing b with
  | nil => rfl
  | cons s ss ih =>
    simp only [List.foldl_cons, valStep, FieldValue.update]
    rw [ih]
    cases ss with
    | nil => simp
    | cons t ss => simp [List.getLast?_cons_cons, List.getLast?_eq_some_getLast]

theorem intText_eq : intText = intLit := by
  funext s
  unfold intText intLit
  by_cases hl : s.getLast? = some 105
  · rw [if_pos hl]
    simp only []
    generalize ht : s.dropLast = t
    have hlen : s.length = t.length + 1 := by
      have : s ≠ [] := by rintro rfl; simp at hl
      rw [← ht, List.length_dropLast]
      have := List.length_pos_iff.2 this
      omega
    by_cases h0 : t = []
    · subst h0
      rw [if_pos (Or.inl (by rw [hlen]; decide))]
      simp
    · have := List.length_pos_iff.2 h0
      rw [if_neg (by rintro (h | h); omega; exact h hl)]
      have key : ∀ v, toInt t = .ok v ↔ (let ds := if t.head? = some MINUS then t.tail else t
          let n : Nat := digitsVal ds % 2 ^ 64
          if ds ≠ [] ∧ ∀ d ∈ ds, IsDigit d then
            if t.head? = some MINUS then (if n ≤ 2 ^ 63 then some (-(n : Int)) else none)
            else if n < 2 ^ 63 then some (n : Int) else none
          else none) = some v := by
        intro v
        rw [toInt_ok_iff]
        simp only []
        constructor
        · rintro ⟨hv, ds, h1, h2, ⟨rfl, h4, h5⟩ | ⟨rfl, h4, h5⟩⟩
          · have hm : t.head? ≠ some MINUS := by
              intro hm
              have := h2 _ (List.mem_of_mem_head? hm)
              revert this; decide
            simp only [hm, if_false]
            rw [if_pos ⟨h1, h2⟩, if_pos (by unfold InInt64 at hv; omega)]
            rw [h5]
          · simp only [List.head?_cons, if_true, List.tail_cons]
            rw [if_pos ⟨h1, h2⟩, if_pos (by unfold InInt64 at hv; omega)]
            rw [h5]
        · intro h
          by_cases hm : t.head? = some MINUS
          · simp only [hm, if_true] at h
            obtain ⟨ds, rfl⟩ : ∃ ds, t = MINUS :: ds := by
              cases t with
              | nil => simp at hm
              | cons c cs => simp at hm; exact ⟨cs, by rw [hm]⟩
            rw [List.tail_cons] at h
            split at h
            · rename_i h1
              split at h
              · simp only [Option.some.injEq] at h
                exact ⟨by unfold InInt64; omega, ds, h1.1, h1.2, Or.inr ⟨rfl, by omega, by omega⟩⟩
              · cases h
            · cases h
          · simp only [hm, if_false] at h
            split at h
            · rename_i h1
              split at h
              · simp only [Option.some.injEq] at h
                exact ⟨by unfold InInt64; omega, t, h1.1, h1.2, Or.inl ⟨rfl, by omega, by omega⟩⟩
              · cases h
            · cases h
      simp only [] at key
      apply Option.ext
      intro v
      rw [← key v]
      cases hr : toInt t with
      | ok w => simp
      | error e => simp
  · rw [if_neg hl, if_pos (Or.inr hl)]

theorem foldl_int {fo : FloatOps} (avg count : Int) (ss : List Sample) :
    ss.foldl valStep (some (FieldValue.int avg count : FieldValue fo)) =
      some (.int (runningMean avg count (ss.filterMap fun x => intLit x.content))
        (count + (ss.filterMap fun x => intLit x.content).length)) := by
  induction ss generalizing avg count with
  | nil => simp [runningMean]
  | cons s ss ih =>
    simp only [List.foldl_cons, valStep, FieldValue.update, intText_eq]
    cases h : intLit s.content with
    | none => simp only [List.filterMap_cons, h]; rw [ih]
    | some v =>
      simp only [List.filterMap_cons, h]; rw [ih]
      simp only [runningMean, List.length_cons, Int.natCast_add]
      congr 2
      omega

theorem foldl_float {fo : FloatOps} (avg : fo.F) (count : Int) (ss : List Sample) :
    ss.foldl valStep (some (FieldValue.float avg count : FieldValue fo)) =
      some (.float (runningMeanF fo avg count (ss.filterMap fun x => fo.parse x.content))
        (count + (ss.filterMap fun x => fo.parse x.content).length)) := by
  induction ss generalizing avg count with
  | nil => simp [runningMeanF]
  | cons s ss ih =>
    simp only [List.foldl_cons, valStep, FieldValue.update]
    cases h : fo.parse s.content with
    | none => simp only [List.filterMap_cons, h]; rw [ih]
    | some v =>
      simp only [List.filterMap_cons, h]; rw [ih]
      simp only [runningMeanF, List.length_cons, Int.natCast_add]
      congr 2
      omega

theorem fieldVal_bytes (fo : FloatOps) (ss : List Sample) (v : FieldValue fo)
    (h : fieldVal fo ss = some v) : v.bytes = aggText fo ss := by
  cases ss with
  | nil => simp [fieldVal] at h
  | cons s ss =>
    have hlast : ∀ b : Bytes, b = s.content →
        ((ss.getLast?).map (·.content)).getD b = ((s :: ss).getLast (by simp)).content := by
      rintro _ rfl
      cases ss with
      | nil => rfl
      | cons t ss => simp [List.getLast?_eq_some_getLast]
    unfold fieldVal at h
    simp only [List.foldl_cons, valStep] at h
    unfold aggText
    cases hq : s.quoted with
    | true =>
      simp only [hq, if_true] at h ⊢
      rw [foldl_str] at h
      cases h
      rw [FieldValue.bytes, quote_eq, hlast _ rfl]
    | false =>
      simp only [hq, Bool.false_eq_true, if_false] at h ⊢
      unfold newFieldValue at h
      rw [intText_eq] at h
      cases hi : intLit s.content with
      | some iv =>
        simp only [hi] at h ⊢
        rw [foldl_int] at h
        cases h; rfl
      | none =>
        simp only [hi] at h ⊢
        cases hp : fo.parse s.content with
        | some fv =>
          simp only [hp] at h ⊢
          rw [foldl_float] at h
          cases h; rfl
        | none =>
          simp only [hp] at h ⊢
          rw [foldl_raw] at h
          cases h
          rw [FieldValue.bytes, hlast _ rfl]

/-! ## Buckets -/

/-- A line as read: the series key and the fields up to the first malformed one. -/
def asRead (line : Bytes) : SLine :=
  ⟨(readLine line).1, (readLine line).2.1.map fun it => (it.name, it.sample)⟩

/-- Add lines one after the other, collecting the errors of each. -/
def addAll {fo : FloatOps} : Bucket fo → List Bytes → Go (Bucket fo × List (List DErr))
  | b, [] => .ok (b, [])
  | b, l :: ls => do
    let (b, e) ← b.addLine l
    let (b, es) ← addAll b ls
    return (b, e :: es)

/-- The lines that were kept: those without error, and those of a series already there. -/
def keptFrom (known : List Bytes) : List (Bytes × List DErr) → List SLine
  | [] => []
  | (l, e) :: rest =>
    if e = [] ∨ (asRead l).key ∈ known then asRead l :: keptFrom ((asRead l).key :: known) rest
    else keptFrom known rest

/-- What a bucket holds: the series of `ls`, with every field in the state given by its samples. -/
structure Holds {fo : FloatOps} (b : Bucket fo) (ls : List SLine) : Prop where
  nodup : (b.lines.map (·.1)).Nodup
  keys : ∀ k, k ∈ b.lines.map (·.1) ↔ k ∈ ls.map (·.key)
  fnodup : ∀ k fs, mget b.lines k = some fs → (fs.map (·.1)).Nodup
  vals : ∀ k fs n, mget b.lines k = some fs → mget fs n = fieldVal fo (samplesOf k n ls)

theorem holds_new (fo : FloatOps) (ts : Int) : Holds (Bucket.new fo ts) [] :=
  ⟨by simp [Bucket.new], by simp [Bucket.new], by simp [Bucket.new, mget_nil], by simp [Bucket.new, mget_nil]⟩

theorem samplesOf_append (k n : Bytes) (a b : List SLine) :
    samplesOf k n (a ++ b) = samplesOf k n a ++ samplesOf k n b := by
  simp [samplesOf]

theorem samplesOf_not_mem (k n : Bytes) (ls : List SLine) (h : k ∉ ls.map (·.key)) :
    samplesOf k n ls = [] := by
  unfold samplesOf
  rw [List.flatMap_eq_nil_iff]
  intro l hl
  rw [if_neg]
  intro hk
  exact h (hk ▸ List.mem_map_of_mem (f := (·.key)) hl)

theorem samplesOf_asRead (k n : Bytes) (line : Bytes) :
    samplesOf k n [asRead line] =
      if (readLine line).1 = k then
        (((readLine line).2.1.filter (fun it => it.name = n)).map Item.sample) else [] := by
  simp only [samplesOf, asRead, List.flatMap_cons, List.flatMap_nil, List.append_nil]
  split
  · generalize (readLine line).2.1 = is
    induction is with
    | nil => rfl
    | cons it is ih =>
      by_cases h : it.name = n
      · simp [h] at ih ⊢; exact ih
      · simp [h] at ih ⊢; exact ih
  · rfl

theorem holds_absorb {fo : FloatOps} {b : Bucket fo} {ls : List SLine} (h : Holds b ls) (line : Bytes)
    (fs0 : Fields fo)
    (h0 : mget b.lines (readLine line).1 = some fs0 ∨ (mget b.lines (readLine line).1 = none ∧ fs0 = [])) :
    Holds { b with lines := mset b.lines (readLine line).1 (addItems fs0 (readLine line).2.1).1 }
      (ls ++ [asRead line]) := by
  have hn0 : (fs0.map (·.1)).Nodup := by
    rcases h0 with h0 | ⟨_, rfl⟩
    · exact h.fnodup _ _ h0
    · simp
  have hv0 : ∀ n, mget fs0 n = fieldVal fo (samplesOf (readLine line).1 n ls) := by
    intro n
    rcases h0 with h0 | ⟨h0, rfl⟩
    · exact h.vals _ _ n h0
    · rw [samplesOf_not_mem _ _ _ (by
        rw [← h.keys]; exact (mget_eq_none _ _).1 h0)]
      rfl
  refine ⟨mset_nodup _ _ _ h.nodup, ?_, ?_, ?_⟩
  · intro k
    simp only [mem_mset_keys, h.keys, List.map_append, List.mem_append, List.map_cons, List.map_nil,
      List.mem_singleton, asRead]
    exact Or.comm
  · intro k fs hk
    simp only [mget_mset] at hk
    split at hk
    · cases hk; exact addItems_nodup _ _ hn0
    · exact h.fnodup _ _ hk
  · intro k fs n hk
    simp only [mget_mset] at hk
    rw [samplesOf_append, samplesOf_asRead]
    split at hk
    · rename_i hkk
      cases hk
      rw [addItems_mget, hv0, if_pos hkk, hkk]
      unfold fieldVal
      rw [List.foldl_append]
    · rename_i hkk
      rw [if_neg hkk, List.append_nil]
      exact h.vals _ _ _ hk

theorem addLine_holds {fo : FloatOps} {b : Bucket fo} {ls : List SLine} (h : Holds b ls) (line : Bytes) :
    ∃ b' e, b.addLine line = .ok (b', e) ∧ b'.ts = b.ts ∧
      Holds b' (ls ++ if e = [] ∨ (asRead line).key ∈ ls.map (·.key) then [asRead line] else []) := by
  rw [addLine_eq]
  have hk : (asRead line).key = (readLine line).1 := rfl
  cases hm : mget b.lines (readLine line).1 with
  | some fs0 =>
    refine ⟨_, _, rfl, rfl, ?_⟩
    rw [if_pos (Or.inr (by
      rw [hk, ← h.keys, ← mget_isSome, hm]; rfl))]
    exact holds_absorb h line fs0 (Or.inl hm)
  | none =>
    simp only []
    split
    · refine ⟨_, _, rfl, rfl, ?_⟩
      rw [if_pos (Or.inl rfl)]
      exact holds_absorb h line [] (Or.inr ⟨hm, rfl⟩)
    · rename_i he
      refine ⟨_, _, rfl, rfl, ?_⟩
      rw [if_neg]
      · rw [List.append_nil]; exact h
      · rintro (hx | hx)
        · exact he hx
        · rw [hk, ← h.keys, ← mget_isSome, hm] at hx
          cases hx

theorem keptFrom_congr (k1 k2 : List Bytes) (es : List (Bytes × List DErr))
    (h : ∀ k, k ∈ k1 ↔ k ∈ k2) : keptFrom k1 es = keptFrom k2 es := by
  induction es generalizing k1 k2 with
  | nil => rfl
  | cons x es ih =>
    obtain ⟨l, e⟩ := x
    simp only [keptFrom]
    rw [ih ((asRead l).key :: k1) ((asRead l).key :: k2) (by intro k; simp [h]), ih k1 k2 h]
    simp only [h]

theorem addAll_holds {fo : FloatOps} {b : Bucket fo} {ls : List SLine} (h : Holds b ls)
    (lines : List Bytes) :
    ∃ b' es, addAll b lines = .ok (b', es) ∧ es.length = lines.length ∧ b'.ts = b.ts ∧
      Holds b' (ls ++ keptFrom (ls.map (·.key)) (lines.zip es)) := by
  induction lines generalizing b ls with
  | nil => exact ⟨b, [], rfl, rfl, rfl, by simpa [keptFrom] using h⟩
  | cons l lines ih =>
    obtain ⟨b1, e, h1, ht, h2⟩ := addLine_holds h l
    obtain ⟨b2, es, h3, h4, h5, h6⟩ := ih h2
    refine ⟨b2, e :: es, by simp [addAll, h1, h3], by simp [h4], by rw [h5, ht], ?_⟩
    rw [List.zip_cons_cons, keptFrom]
    by_cases hc : e = [] ∨ (asRead l).key ∈ ls.map (·.key)
    · rw [if_pos hc] at h6 ⊢
      rw [keptFrom_congr _ ((asRead l).key :: ls.map (·.key)) _ (by
        intro k; simp [or_comm])] at h6
      simpa using h6
    · rw [if_neg hc] at h6 ⊢
      simpa using h6

/-! ## Output -/

theorem intersperse_map (f : α → β) (s : α) (l : List α) :
    (l.intersperse s).map f = (l.map f).intersperse (f s) := by
  match l with
  | [] => rfl
  | [a] => rfl
  | a :: b :: l =>
    have := intersperse_map f s (b :: l)
    simp only [List.intersperse, List.map_cons] at this ⊢
    rw [this]

theorem sorted_strict (S : Sorter) (l : List Bytes) (h : l.Nodup) :
    (S.sort id l).Pairwise (fun a b => bytesLt a b = true) := by
  have hs := S.sorted id l
  have hn : (S.sort id l).Nodup := (S.perm id l).nodup_iff.2 h
  generalize S.sort id l = m at hs hn
  induction m with
  | nil => simp
  | cons a m ih =>
    rw [List.pairwise_cons] at hs ⊢
    rw [List.nodup_cons] at hn
    refine ⟨?_, ih hs.2 hn.2⟩
    intro b hb
    cases hlt : bytesLt a b with
    | true => rfl
    | false =>
      have := bytesLt_total hlt (hs.1 b hb)
      exact absurd (this ▸ hb) hn.1

/-- The row of an entry of the map. -/
def rowOf {fo : FloatOps} (S : Sorter) (e : Bytes × Fields fo) : Row :=
  ⟨e.1, (S.sort id (e.2.map (·.1))).map fun n =>
    (n, match mget e.2 n with | some v => v.bytes | none => [])⟩

theorem fieldsBytes_eq {fo : FloatOps} (S : Sorter) (e : Bytes × Fields fo) :
    fieldsBytes S e.2 = fieldsText (rowOf S e).fields := by
  unfold fieldsBytes fieldsText rowOf
  simp only [List.map_map]
  rfl

theorem fieldsText_nil_iff (fs : List (Bytes × Bytes)) : (fieldsText fs).length > 0 ↔ fs ≠ [] := by
  match fs with
  | [] => simp [fieldsText]
  | [a] => simp [fieldsText]; omega
  | a :: b :: l => simp [fieldsText, List.intersperse]; omega

theorem bytes_rows {fo : FloatOps} (S : Sorter) (ord : MapOrder) (b : Bucket fo) :
    b.bytes S ord = ((ord.order b.lines).map (rowOf S)).flatMap (Row.text (wrap64 b.ts)) := by
  unfold Bucket.bytes
  rw [List.flatMap_map]
  congr 1
  funext e
  unfold Row.text
  simp only [fieldsBytes_eq, fieldsText_nil_iff]
  by_cases h : (rowOf S e).fields = []
  · simp [h]; rfl
  · simp [h]; rfl

theorem rows_aggregate {fo : FloatOps} (S : Sorter) (b : Bucket fo) (ls : List SLine) (h : Holds b ls) :
    Aggregates fo ls (b.lines.map (rowOf S)) := by
  have hkeys : (b.lines.map (rowOf S)).map (·.key) = b.lines.map (·.1) := by
    rw [List.map_map]; rfl
  refine ⟨by rw [hkeys]; exact h.nodup, by rw [hkeys]; exact h.keys, ?_⟩
  intro r hr
  obtain ⟨e, he, rfl⟩ := List.mem_map.1 hr
  obtain ⟨k, fs⟩ := e
  have hget : mget b.lines k = some fs := mget_of_mem h.nodup he
  have hfn := h.fnodup _ _ hget
  have hnames : (rowOf S (k, fs)).fields.map (·.1) = S.sort id (fs.map (·.1)) := by
    simp [rowOf, List.map_map, Function.comp_def]
  refine ⟨by rw [hnames]; exact sorted_strict S _ hfn, ?_⟩
  intro n v
  have hv := h.vals k fs n hget
  have hmem : n ∈ S.sort id (fs.map (·.1)) ↔ (mget fs n).isSome := by
    rw [(S.perm id _).mem_iff, mget_isSome]
  show (n, v) ∈ (S.sort id (fs.map (·.1))).map _ ↔ samplesOf k n ls ≠ [] ∧ v = aggText fo (samplesOf k n ls)
  rw [List.mem_map]
  constructor
  · rintro ⟨m, hm, heq⟩
    obtain ⟨rfl, rfl⟩ := Prod.mk.inj heq
    rw [hmem] at hm
    obtain ⟨w, hw⟩ := Option.isSome_iff_exists.1 hm
    rw [hw] at hv
    refine ⟨?_, ?_⟩
    · rw [← fieldVal_isSome fo, ← hv]; rfl
    · rw [hw]; exact fieldVal_bytes _ _ _ hv.symm
  · rintro ⟨h1, rfl⟩
    rw [← fieldVal_isSome fo, ← hv] at h1
    refine ⟨n, hmem.2 h1, ?_⟩
    obtain ⟨w, hw⟩ := Option.isSome_iff_exists.1 h1
    rw [hw] at hv ⊢
    show (n, w.bytes) = _
    rw [fieldVal_bytes _ _ _ hv.symm]

/-! ## Reading well-formed lines -/

theorem noDelim_of_escaped (d p : Byte) (t : Bytes)
    (h : ∀ pre post, pre ≠ [] → p :: t = pre ++ d :: post → pre.getLast? = some BS) :
    NoDelim [d] p t := by
  induction t generalizing p with
  | nil => trivial
  | cons c cs ih =>
    refine ⟨?_, ?_⟩
    · by_cases hc : c = d
      · have := h [p] cs (by simp) (by simp [hc])
        simp at this
        exact Or.inl this
      · exact Or.inr (by simpa using hc)
    · apply ih
      intro pre post hp he
      have := h (p :: pre) post (by simp) (by simp [he])
      cases pre with
      | nil => exact absurd rfl hp
      | cons a b => rwa [List.getLast?_cons_cons] at this

theorem tokL_delimitable (d : Byte) (s r : Bytes) (h : Delimitable d s) :
    tokL [d] (s ++ d :: r) = (s, d :: r) := by
  obtain ⟨h1, h2, h3⟩ := h
  cases s with
  | nil => exact absurd rfl h1
  | cons p t =>
    exact tokL_of_noDelim [d] p t d r (noDelim_of_escaped d p t (fun pre post _ => h3 pre post))
      (fun hl => h2 (by rw [lastD_eq, hl])) (by simp)

theorem noDelim_of_not_mem (d p : Byte) (t : Bytes) (h : d ∉ t) : NoDelim [d] p t := by
  induction t generalizing p with
  | nil => trivial
  | cons c cs ih =>
    rw [List.mem_cons, not_or] at h
    exact ⟨Or.inr (by simpa using fun x => h.1 x.symm), ih c h.2⟩

theorem quotSplit_quote (x tail : Bytes) (h1 : x.getLast? ≠ some BS) (h2 : DQ ∉ x ∨ BS ∉ x) :
    ∃ d2 ds, quote x ++ tail = DQ :: d2 :: ds ∧
      ∃ a e, quotSplit DQ (d2 :: ds) = some (a, tail, e) ∧ (if e = true then unescL a else a) = x := by
  have hr : quotedString (escapeQuotedString x ++ tail) = .ok (.ok (x, tail)) := by
    rw [quotedString_roundtrip_iff]
    refine ⟨h1, ?_⟩
    rcases h2 with h2 | h2
    · exact Or.inl h2
    · refine Or.inr ?_
      rintro d _ _ ⟨u, v, rfl⟩
      exact h2 (by simp)
  rw [quote_eq] at hr
  obtain ⟨d2, ds, hd⟩ : ∃ d2 ds, quote x ++ tail = DQ :: d2 :: ds := by
    unfold quote
    cases hx : x.flatMap (fun b => if b = DQ then [BS, DQ] else [b]) with
    | nil => exact ⟨DQ, tail, by simp⟩
    | cons a b => exact ⟨a, b ++ [DQ] ++ tail, by simp⟩
  refine ⟨d2, ds, hd, ?_⟩
  rw [hd, quotedString_eq] at hr
  simp only [ne_eq, not_true_eq_false, if_false] at hr
  cases hq : quotSplit DQ (d2 :: ds) with
  | none => rw [hq] at hr; simp at hr
  | some v =>
    obtain ⟨a, r, e⟩ := v
    rw [hq] at hr
    simp only [Go.ok.injEq, Except.ok.injEq, Prod.mk.injEq] at hr
    exact ⟨a, e, by rw [hr.2], hr.1⟩

/-- The text of the fields, each preceded by a separator byte. -/
def fieldTail : Byte → List (Bytes × Sample) → Bytes
  | _, [] => []
  | sep, f :: fs => sep :: (f.1 ++ EQ :: f.2.text ++ fieldTail COMMA fs)

theorem fieldTail_eq (sep : Byte) (f : Bytes × Sample) (fs : List (Bytes × Sample)) :
    fieldTail sep (f :: fs) = sep :: fieldsText ((f :: fs).map fun f => (f.1, f.2.text)) := by
  induction fs generalizing f sep with
  | nil => simp [fieldTail, fieldsText]
  | cons g gs ih =>
    rw [fieldTail, ih COMMA g]
    simp [fieldsText, List.intersperse]

theorem readFields_tail (sep : Byte) (fs : List (Bytes × Sample))
    (h : ∀ f ∈ fs, Delimitable EQ f.1 ∧ f.2.WF) (fuel : Nat) (hf : (fieldTail sep fs).length < fuel) :
    readFields fuel (fieldTail sep fs) = (fs.map fun f => ⟨f.1, f.2.quoted, f.2.content⟩, none) := by
  induction fs generalizing sep fuel with
  | nil =>
    obtain ⟨f, rfl⟩ : ∃ f, fuel = f + 1 := ⟨fuel - 1, by omega⟩
    rfl
  | cons f fs ih =>
    obtain ⟨fu, rfl⟩ : ∃ f, fuel = f + 1 := ⟨fuel - 1, by omega⟩
    obtain ⟨hn, hw⟩ := h f (by simp)
    have ih := ih COMMA (fun g hg => h g (by simp [hg]))
    simp only [fieldTail, List.length_cons, List.length_append] at hf
    rw [fieldTail, readFields, List.append_assoc, List.cons_append, tokL_delimitable EQ f.1 _ hn]
    simp only [ne_eq, not_true_eq_false, if_false]
    unfold Sample.WF at hw
    unfold Sample.text
    cases hq : f.2.quoted with
    | true =>
      simp only [hq, if_true] at hw ⊢
      obtain ⟨d2, ds, h1, a, e, h2, h3⟩ := quotSplit_quote f.2.content (fieldTail COMMA fs) hw.1 hw.2
      rw [h1]
      simp only [if_true, h2]
      rw [ih fu (by omega), h3]
      simp [hq]
    | false =>
      simp only [hq, Bool.false_eq_true, if_false] at hw ⊢
      obtain ⟨h1, h2, h3, h4⟩ := hw
      cases hc : f.2.content with
      | nil => exact absurd hc h1
      | cons d ds =>
        rw [hc] at h2 h3 h4
        have hd : d ≠ DQ := by intro x; subst x; simp at h4
        rw [List.cons_append]
        simp only [hd, if_false]
        have hts : tokL b!"," (d :: (ds ++ fieldTail COMMA fs)) = (d :: ds, fieldTail COMMA fs) := by
          have hnd : NoDelim [COMMA] d ds := noDelim_of_not_mem _ _ _ (by
            intro x; exact h2 (List.mem_cons_of_mem _ x))
          cases fs with
          | nil =>
            simp only [fieldTail, List.append_nil]
            exact tokL_of_noDelim_nil [COMMA] d ds hnd (by
              intro _ x; simp at x; subst x; exact h2 (by simp))
          | cons g gs =>
            rw [fieldTail]
            exact tokL_of_noDelim [COMMA] d ds COMMA _ hnd (by
              intro hl
              have := lastD_eq d ds
              rw [hl] at this
              exact h3 (List.mem_of_getLast? this)) (by simp)
        rw [hts]
        simp only []
        rw [ih fu (by omega), unescL_id _ h3]
        simp [hc, hq]

theorem readLine_text (l : SLine) (h : l.WF) :
    readLine l.text = (l.key, l.fields.map fun f => ⟨f.1, f.2.quoted, f.2.content⟩, none) := by
  obtain ⟨h1, h2, h3⟩ := h
  have ht : l.text = l.key ++ SP :: fieldsText (l.fields.map fun f => (f.1, f.2.text)) := by
    unfold SLine.text; simp
  unfold readLine
  rw [ht, tokL_delimitable SP _ _ h1]
  cases hf : l.fields with
  | nil => exact absurd hf h2
  | cons f fs =>
    rw [hf] at h3
    rw [← fieldTail_eq, readFields_tail SP (f :: fs) h3 _ (Nat.lt_succ_self _)]

theorem asRead_text (l : SLine) (h : l.WF) : asRead l.text = l := by
  unfold asRead
  rw [readLine_text l h]
  obtain ⟨key, fields⟩ := l
  simp only [SLine.mk.injEq, true_and, List.map_map]
  conv => rhs; rw [← List.map_id fields]
  apply List.map_congr_left
  intro f _
  rfl

end Spout
