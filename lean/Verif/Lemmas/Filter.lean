import Verif.Model.Filter
import Verif.Lemmas.InfluxTags

/-! # Lemmas about the filter: aliasing, sorting, matching -/

namespace Spout

/-! ## bytesLt is a strict total order -/

theorem bytesLt_irrefl (a : Bytes) : bytesLt a a = false := by
  induction a with
  | nil => rfl
  | cons c cs ih => simp [bytesLt, ih]

theorem bytesLt_trans {a b c : Bytes} (h1 : bytesLt a b = true) (h2 : bytesLt b c = true) :
    bytesLt a c = true := by
  induction a generalizing b c with
  | nil =>
    cases b with
    | nil => simp [bytesLt] at h1
    | cons y ys => cases c with
      | nil => simp [bytesLt] at h2
      | cons z zs => rfl
  | cons x xs ih =>
    cases b with
    | nil => simp [bytesLt] at h1
    | cons y ys => cases c with
      | nil => simp [bytesLt] at h2
      | cons z zs =>
        simp only [bytesLt] at h1 h2 ⊢
        by_cases hxy : x < y
        · by_cases hyz : y < z
          · rw [if_pos (UInt8.lt_trans hxy hyz)]
          · by_cases hzy : z < y
            · simp [hyz, hzy] at h2
            · have : y = z := UInt8.le_antisymm (UInt8.not_lt.1 hzy) (UInt8.not_lt.1 hyz)
              subst this; rw [if_pos hxy]
        · by_cases hyx : y < x
          · simp [hxy, hyx] at h1
          · have : x = y := UInt8.le_antisymm (UInt8.not_lt.1 hyx) (UInt8.not_lt.1 hxy)
            subst this
            simp only [UInt8.lt_irrefl, if_false] at h1
            by_cases hxz : x < z
            · rw [if_pos hxz]
            · by_cases hzx : z < x
              · simp [hxz, hzx] at h2
              · simp only [hxz, hzx, if_false] at h2 ⊢
                exact ih h1 h2

theorem bytesLt_total {a b : Bytes} (h1 : bytesLt a b = false) (h2 : bytesLt b a = false) : a = b := by
  induction a generalizing b with
  | nil => cases b with
    | nil => rfl
    | cons y ys => simp [bytesLt] at h1
  | cons x xs ih => cases b with
    | nil => simp [bytesLt] at h2
    | cons y ys =>
      simp only [bytesLt] at h1 h2
      by_cases hxy : x < y
      · simp [hxy] at h1
      · by_cases hyx : y < x
        · simp [hyx] at h2
        · simp only [hxy, hyx, if_false] at h1 h2
          have : x = y := UInt8.le_antisymm (UInt8.not_lt.1 hyx) (UInt8.not_lt.1 hxy)
          rw [this, ih h1 h2]

theorem bytesLt_asymm {a b : Bytes} (h : bytesLt a b = true) : bytesLt b a = false := by
  cases hb : bytesLt b a with
  | false => rfl
  | true => have := bytesLt_trans h hb; rw [bytesLt_irrefl] at this; cases this

/-- `≤` is transitive. -/
theorem bytesLe_trans {a b c : Bytes} (h1 : bytesLt b a = false) (h2 : bytesLt c b = false) :
    bytesLt c a = false := by
  cases hca : bytesLt c a with
  | false => rfl
  | true =>
    exfalso
    cases hab : bytesLt a b with
    | true => have := bytesLt_trans hca hab; rw [this] at h2; cases h2
    | false =>
      have := bytesLt_total hab h1
      subst this
      rw [hca] at h2; cases h2

/-! ## A concrete sorter (insertion sort): the assumptions on `sort.Sort` are satisfiable -/

def insertBy (key : α → Bytes) (x : α) : List α → List α
  | [] => [x]
  | y :: ys => if bytesLt (key y) (key x) then y :: insertBy key x ys else x :: y :: ys

def isort (key : α → Bytes) : List α → List α
  | [] => []
  | x :: xs => insertBy key x (isort key xs)

theorem insertBy_perm (key : α → Bytes) (x : α) (l : List α) : (insertBy key x l).Perm (x :: l) := by
  induction l with
  | nil => exact List.Perm.refl _
  | cons y ys ih =>
    simp only [insertBy]
    split
    · exact ((List.Perm.cons y ih).trans (List.Perm.swap x y ys))
    · exact List.Perm.refl _

theorem isort_perm (key : α → Bytes) (l : List α) : (isort key l).Perm l := by
  induction l with
  | nil => exact List.Perm.refl _
  | cons x xs ih => exact (insertBy_perm key x _).trans (List.Perm.cons x ih)

theorem insertBy_sorted (key : α → Bytes) (x : α) (l : List α)
    (h : l.Pairwise fun a b => bytesLt (key b) (key a) = false) :
    (insertBy key x l).Pairwise fun a b => bytesLt (key b) (key a) = false := by
  induction l with
  | nil => simp [insertBy]
  | cons y ys ih =>
    simp only [insertBy]
    rw [List.pairwise_cons] at h
    split
    · rename_i hlt
      rw [List.pairwise_cons]
      refine ⟨?_, ih h.2⟩
      intro b hb
      have := (insertBy_perm key x ys).mem_iff.1 hb
      rw [List.mem_cons] at this
      rcases this with rfl | hb'
      · exact bytesLt_asymm hlt
      · exact h.1 b hb'
    · rename_i hlt
      have hyx : bytesLt (key y) (key x) = false := by simpa using hlt
      rw [List.pairwise_cons, List.pairwise_cons]
      refine ⟨?_, h⟩
      intro b hb
      rw [List.mem_cons] at hb
      rcases hb with rfl | hb
      · exact hyx
      · exact bytesLe_trans hyx (h.1 b hb)

theorem isort_sorted (key : α → Bytes) (l : List α) :
    (isort key l).Pairwise fun a b => bytesLt (key b) (key a) = false := by
  induction l with
  | nil => exact List.Pairwise.nil
  | cons x xs ih => exact insertBy_sorted key x _ ih

theorem insertBy_natural (f : α → β) (key : β → Bytes) (x : α) (l : List α) :
    (insertBy (fun a => key (f a)) x l).map f = insertBy key (f x) (l.map f) := by
  induction l with
  | nil => rfl
  | cons y ys ih =>
    simp only [insertBy, List.map_cons]
    split
    · simp [ih]
    · simp

theorem isort_natural (f : α → β) (key : β → Bytes) (l : List α) :
    (isort (fun a => key (f a)) l).map f = isort key (l.map f) := by
  induction l with
  | nil => rfl
  | cons x xs ih => simp only [isort, List.map_cons, insertBy_natural, ih]

/-- Insertion sort is an admissible `sort.Sort`. -/
def insertionSorter : Sorter where
  sort := isort
  perm := isort_perm
  sorted := isort_sorted
  natural := isort_natural

/-! ## Aliasing parser refines the value parser -/

/-- What a `Ref` produced by `tokenRef` looks like. -/
def mkRef (off : Nat) (tok : Bytes) : Ref :=
  if BS ∈ tok.dropLast then .own (unescL tok) else .view off tok.length

theorem tokenRef_eq (off : Nat) (s til : Bytes) :
    tokenRef off s til = .ok (mkRef off (tokL til s).1, (tokL til s).2) := by
  unfold tokenRef mkRef
  rw [token_eq]
  simp only [Go.ok_bind]
  by_cases h : BS ∈ (tokL til s).1.dropLast
  · simp [h, unescape_eq]
  · simp [h]

theorem mkRef_get (pre tok post : Bytes) :
    (mkRef pre.length tok).get (pre ++ (tok ++ post)) = unescL tok := by
  unfold mkRef
  split
  · rfl
  · rename_i h
    rw [unescL_of_not_dropLast _ h]
    simp [Ref.get]

theorem unescL_length_eq_zero (t : Bytes) : unescL t = [] ↔ t = [] := by
  constructor
  · intro h
    match t with
    | [] => rfl
    | [c] => simp [unescL] at h
    | c :: d :: r =>
      simp only [unescL] at h
      split at h <;> simp at h
  · rintro rfl; rfl

theorem mkRef_len_zero (off : Nat) (tok : Bytes) :
    (mkRef off tok).len = 0 ↔ unescL tok = [] := by
  unfold mkRef
  by_cases h : BS ∈ tok.dropLast
  · rw [if_pos h]; simp [Ref.len, List.length_eq_zero_iff]
  · rw [if_neg h, unescL_length_eq_zero]; simp [Ref.len, List.length_eq_zero_iff]

/-- One iteration of the aliasing tag loop. -/
theorem parseTagsRefLoop_unfold (n : Nat) (m : Ref) (f : Nat) (line : Bytes) (tags : List RTag) :
    parseTagsRefLoop n m (f + 1) line tags =
      match line with
      | [] => .ok (some ⟨m, tags, []⟩)
      | c :: cs =>
        if c = SP then .ok (some ⟨m, tags, cs⟩)
        else match (tokL b!"= ," cs).2 with
          | [] => .ok none
          | e :: es =>
            if e ≠ EQ then .ok none
            else if unescL (tokL b!", " es).1 = [] then .ok none
            else parseTagsRefLoop n m f (tokL b!", " es).2
              (tags ++ [⟨mkRef (n - cs.length) (tokL b!"= ," cs).1,
                mkRef (n - es.length) (tokL b!", " es).1⟩]) := by
  rw [parseTagsRefLoop]
  cases line with
  | nil => rfl
  | cons c cs =>
    rw [if_neg (by simp)]
    simp only [idx, List.getElem?_cons_zero, Go.ok_bind, sliceFrom, List.length_cons,
      Nat.le_add_left, if_true, List.drop_succ_cons, List.drop_zero]
    split
    · rfl
    · rw [tokenRef_eq]
      simp only [Go.ok_bind]
      cases h2 : (tokL b!"= ," cs).2 with
      | nil => rfl
      | cons e es =>
        rw [if_neg (by simp)]
        simp only [List.getElem?_cons_zero, Go.ok_bind, List.length_cons,
          Nat.le_add_left, if_true, List.drop_succ_cons, List.drop_zero]
        split
        · rfl
        · rw [tokenRef_eq]
          simp only [Go.ok_bind, mkRef_len_zero, Go.pure_eq]

/-- Forgetting the aliasing. -/
def RParsed.get (mem : Bytes) (p : RParsed) : Parsed :=
  ⟨p.measurement.get mem, p.tags.map (·.get mem), p.rest⟩

/-- The result of the aliasing parser, pushed through `get`. -/
def goGet (mem : Bytes) : Go (Option RParsed) → Go (Option Parsed)
  | .ok r => .ok (r.map (·.get mem))
  | .panic => .panic

theorem parseTagsRefLoop_get (full : Bytes) (m : Ref) (f : Nat) (pre line : Bytes)
    (tags : List RTag) (hfull : full = pre ++ line) :
    goGet full (parseTagsRefLoop full.length m f line tags) =
      parseTagsLoop (m.get full) f line (tags.map (·.get full)) := by
  induction f generalizing pre line tags with
  | zero => rfl
  | succ f ih =>
    rw [parseTagsRefLoop_unfold, parseTagsLoop_unfold]
    cases line with
    | nil => rfl
    | cons c cs =>
      simp only
      split
      · rfl
      · have hk := tokL_append b!"= ," cs
        cases h2 : (tokL b!"= ," cs).2 with
        | nil => rfl
        | cons e es =>
          rw [h2] at hk
          simp only
          split
          · rfl
          · split
            · rfl
            · have hv := tokL_append b!", " es
              generalize hK : (tokL b!"= ," cs).1 = K at hk ⊢
              generalize hV : (tokL b!", " es).1 = V at hv ⊢
              generalize hR : (tokL b!", " es).2 = R at hv ⊢
              have e1 : full = (pre ++ [c]) ++ (K ++ (e :: es)) := by rw [hfull, ← hk]; simp
              have e2 : full = (pre ++ [c] ++ K ++ [e]) ++ (V ++ R) := by
                rw [hfull, ← hk, ← hv]; simp
              have o1 : full.length - cs.length = (pre ++ [c]).length := by
                rw [hfull]; simp; omega
              have o2 : full.length - es.length = (pre ++ [c] ++ K ++ [e]).length := by
                rw [e1]; simp; omega
              rw [ih (pre ++ [c] ++ K ++ [e] ++ V) R _ (by rw [e2]; simp)]
              have g1 : (mkRef (full.length - cs.length) K).get full = unescL K := by
                rw [o1]; conv => lhs; rw [e1]
                exact mkRef_get _ _ _
              have g2 : (mkRef (full.length - es.length) V).get full = unescL V := by
                rw [o2]; conv => lhs; rw [e2]
                exact mkRef_get _ _ _
              simp only [List.map_append, List.map_cons, List.map_nil, RTag.get, g1, g2]

/-- The aliasing parser and the value parser agree. -/
theorem parseTagsRef_get (line : Bytes) : goGet line (parseTagsRef line) = parseTags line := by
  unfold parseTagsRef
  rw [tokenRef_eq, parseTags_eq]
  simp only [Go.ok_bind, List.length_eq_zero_iff]
  have hk := tokL_append b!", " line
  have g : (mkRef 0 (tokL b!", " line).1).get line = unescL (tokL b!", " line).1 := by
    have := mkRef_get [] (tokL b!", " line).1 (tokL b!", " line).2
    rw [hk] at this
    exact this
  by_cases h0 : (tokL b!", " line).2 = []
  · rw [if_pos h0, if_pos h0]
    simp [goGet, RParsed.get, g]
  · rw [if_neg h0, if_neg h0]
    rw [parseTagsRefLoop_get line _ _ (tokL b!", " line).1 _ [] hk.symm, g]
    rfl

theorem parseTagsRef_safe (line : Bytes) : Go.Safe (parseTagsRef line) := by
  have h := parseTagsRef_get line
  have h2 := parseTags_safe line
  cases hr : parseTagsRef line with
  | ok r => exact ⟨r, rfl⟩
  | panic =>
    rw [hr] at h
    obtain ⟨a, ha⟩ := h2
    rw [ha] at h; simp [goGet] at h

/-! ## newParsedLine -/

/-- The parsed line as values. -/
structure PVal where
  measurement : Bytes
  tags : List Tag
  escaped : Bytes

/-- Current contents of a parsed line. -/
def PLine.val (pl : PLine) : PVal :=
  ⟨pl.measurement.get pl.mem, pl.tags.map (·.get pl.mem), pl.escaped⟩

theorem newParsedLine_some {line : Bytes} {p : Parsed} (h : parseTags line = .ok (some p)) :
    ∃ pl, newParsedLine line = .ok (some pl) ∧ pl.mem = line ∧ pl.escaped = line ∧
      pl.unescaped = none ∧ pl.hashed = none ∧ pl.measurement.get line = p.measurement ∧
      pl.tags.map (·.get line) = p.tags ∧ pl.remainder = p.rest := by
  have hg := parseTagsRef_get line
  obtain ⟨r, hr⟩ := parseTagsRef_safe line
  rw [hr, h] at hg
  simp only [goGet, Go.ok.injEq] at hg
  cases r with
  | none => simp at hg
  | some rp =>
    simp only [Option.map_some, Option.some.injEq] at hg
    subst hg
    unfold newParsedLine
    rw [hr]
    exact ⟨_, rfl, rfl, rfl, rfl, rfl, rfl, rfl, rfl⟩

theorem newParsedLine_none {line : Bytes} (h : parseTags line = .ok none) :
    newParsedLine line = .ok none := by
  have hg := parseTagsRef_get line
  obtain ⟨r, hr⟩ := parseTagsRef_safe line
  rw [hr, h] at hg
  simp only [goGet, Go.ok.injEq] at hg
  cases r with
  | none => unfold newParsedLine; rw [hr]; rfl
  | some rp => simp at hg

/-! ## Matching -/

/-- Does a rule match a parsed line with the given measurement, tags and
(escaped) text?  No caches, no aliasing. -/
def Matcher.holds (m : Matcher) (measurement : Bytes) (tags : List Tag) (escaped : Bytes) : Bool :=
  match m with
  | .basic hh => hh == fnv32 measurement
  | .regex re => re (unescL escaped)
  | .negregex re => !re (unescL escaped)
  | .tags ts => subsetOf ts tags

/-- The caches are consistent. -/
def PLine.CacheOK (pl : PLine) : Prop :=
  (∀ u, pl.unescaped = some u → u = unescL pl.escaped) ∧
  (∀ h, pl.hashed = some h → h = fnv32 (pl.measurement.get pl.mem))

theorem Matcher.run_spec (m : Matcher) (pl : PLine) (hc : pl.CacheOK) :
    ∃ pl', m.run pl = .ok (m.holds pl.val.measurement pl.val.tags pl.val.escaped, pl') ∧
      pl'.CacheOK ∧ pl'.val = pl.val := by
  have unesc : ∃ pl', pl.getUnescaped = .ok (unescL pl.escaped, pl') ∧ pl'.CacheOK ∧ pl'.val = pl.val := by
    unfold PLine.getUnescaped
    cases hu : pl.unescaped with
    | some u => exact ⟨pl, by rw [← hc.1 u hu], hc, rfl⟩
    | none =>
      simp only [unescape_eq, Go.ok_bind, Go.pure_eq]
      exact ⟨_, rfl, ⟨fun u h => by simpa using h.symm, hc.2⟩, rfl⟩
  cases m with
  | basic hh =>
    unfold Matcher.run PLine.getHashed
    cases hu : pl.hashed with
    | some u => exact ⟨pl, by rw [hc.2 u hu]; rfl, hc, rfl⟩
    | none => exact ⟨_, rfl, ⟨hc.1, fun h hh => by simpa using hh.symm⟩, rfl⟩
  | regex re =>
    obtain ⟨pl', h1, h2, h3⟩ := unesc
    exact ⟨pl', by simp only [Matcher.run, h1, Go.ok_bind]; rfl, h2, h3⟩
  | negregex re =>
    obtain ⟨pl', h1, h2, h3⟩ := unesc
    exact ⟨pl', by simp only [Matcher.run, h1, Go.ok_bind]; rfl, h2, h3⟩
  | tags ts => exact ⟨pl, rfl, hc, rfl⟩

/-- Index of the first element satisfying a predicate, counting from `i`. -/
def firstIdx (p : α → Bool) : Nat → List α → Option Nat
  | _, [] => none
  | i, x :: xs => if p x then some i else firstIdx p (i + 1) xs

theorem lookupParsed_eq (i : Nat) (rules : List Rule) (pl : PLine) (hc : pl.CacheOK) :
    lookupParsed i rules pl =
      .ok (firstIdx (fun r => r.matcher.holds pl.val.measurement pl.val.tags pl.val.escaped) i rules) := by
  induction rules generalizing i pl with
  | nil => rfl
  | cons r rs ih =>
    obtain ⟨pl', h1, h2, h3⟩ := r.matcher.run_spec pl hc
    simp only [lookupParsed, h1, Go.ok_bind, firstIdx]
    split
    · rfl
    · rw [ih (i + 1) pl' h2, h3]

theorem firstIdx_some (p : α → Bool) (i : Nat) (l : List α) (k : Nat) :
    firstIdx p i l = some k ↔ ∃ j x, k = i + j ∧ l[j]? = some x ∧ p x = true ∧
      ∀ j' < j, ∀ y, l[j']? = some y → p y = false := by
  induction l generalizing i with
  | nil => simp [firstIdx]
  | cons x xs ih =>
    simp only [firstIdx]
    by_cases hx : p x = true
    · rw [if_pos hx]
      constructor
      · intro h; injection h with h; subst h
        exact ⟨0, x, rfl, rfl, hx, fun j' hj => by omega⟩
      · rintro ⟨j, y, rfl, hj, hy, hall⟩
        cases j with
        | zero => rfl
        | succ j =>
          have := hall 0 (by omega) x rfl
          rw [hx] at this; cases this
    · have hx' : p x = false := by simpa using hx
      rw [if_neg hx, ih]
      constructor
      · rintro ⟨j, y, rfl, hj, hy, hall⟩
        refine ⟨j + 1, y, by omega, by simpa using hj, hy, ?_⟩
        intro j' hj' z hz
        cases j' with
        | zero => simp at hz; subst hz; exact hx'
        | succ j' => exact hall j' (by omega) z (by simpa using hz)
      · rintro ⟨j, y, rfl, hj, hy, hall⟩
        cases j with
        | zero => simp at hj; subst hj; rw [hx'] at hy; cases hy
        | succ j =>
          refine ⟨j, y, by omega, by simpa using hj, hy, ?_⟩
          intro j' hj' z hz
          exact hall (j' + 1) (by omega) z (by simpa using hz)

theorem firstIdx_none (p : α → Bool) (i : Nat) (l : List α) :
    firstIdx p i l = none ↔ ∀ x ∈ l, p x = false := by
  induction l generalizing i with
  | nil => simp [firstIdx]
  | cons x xs ih =>
    simp only [firstIdx, List.mem_cons, forall_eq_or_imp]
    by_cases hx : p x = true
    · simp [hx]
    · simp [hx, ih]

theorem firstIdx_lt (p : α → Bool) (i : Nat) (l : List α) (k : Nat) (h : firstIdx p i l = some k) :
    k < i + l.length := by
  obtain ⟨j, x, rfl, hj, -, -⟩ := (firstIdx_some p i l k).1 h
  have := (List.getElem?_eq_some_iff.1 hj).1
  omega

end Spout
