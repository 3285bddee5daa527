import Verif.Lemmas.Influx

/-! # Lemmas: round trips, quoted strings, tag parsing -/

namespace Spout

/-! ## Unescape after Escape -/

/-- What `Unescape ∘ Escape chars` does: it removes a backslash in front of an
escapable byte that `chars` does not contain. -/
def unescKeep (chars : Bytes) : Bytes → Bytes
  | [] => []
  | [c] => [c]
  | c :: d :: rest =>
    if c = BS ∧ Escapable d ∧ d ∉ chars then d :: unescKeep chars rest
    else c :: unescKeep chars (d :: rest)

theorem unescL_cons_of_ne (c : Byte) (s : Bytes) (h : c ≠ BS) : unescL (c :: s) = c :: unescL s := by
  cases s with
  | nil => rfl
  | cons d ds => simp [unescL, h]

theorem unescL_escL (chars : Bytes) (hs : ∀ c ∈ chars, Escapable c) (x : Bytes) :
    unescL (escL chars x) = unescKeep chars x := by
  have hb : BS ∉ chars := fun h => absurd (hs _ h) (by decide)
  have hesc : ∀ c (s : Bytes), c ∈ chars → unescL (BS :: c :: s) = c :: unescL s := by
    intro c s hc; simp [unescL, hs c hc]
  fun_induction unescKeep chars x with
  | case1 => rfl
  | case2 c =>
    by_cases hc : c ∈ chars
    · simp [escL, hc, hesc, unescL]
    · simp [escL, hc, unescL]
  | case3 c d rest h ih =>
    obtain ⟨rfl, h2, h3⟩ := h
    simp [escL, hb, h3, unescL, h2, ih]
  | case4 c d rest h ih =>
    by_cases hc : c ∈ chars
    · rw [escL, if_pos hc, hesc _ _ hc, ih]
    · rw [escL, if_neg hc]
      by_cases hcb : c = BS
      · subst hcb
        by_cases hd : d ∈ chars
        · rw [escL, if_pos hd] at ih ⊢
          rw [← ih]
          rw [unescL, if_neg]
          rintro ⟨-, h⟩; exact absurd h (by decide)
        · rw [escL, if_neg hd] at ih ⊢
          rw [← ih, unescL, if_neg]
          rintro ⟨-, h'⟩; exact h ⟨rfl, h', hd⟩
      · rw [unescL_cons_of_ne _ _ hcb, ih]

theorem unescKeep_length (chars x : Bytes) : (unescKeep chars x).length ≤ x.length := by
  fun_induction unescKeep chars x with
  | case1 => simp
  | case2 => simp
  | case3 c d rest h ih => simp only [List.length_cons]; omega
  | case4 c d rest h ih => simp only [List.length_cons] at ih ⊢; omega

/-- `x` contains the byte `a` immediately followed by the byte `b`. -/
def HasPair (a b : Byte) (x : Bytes) : Prop := ∃ u v, x = u ++ a :: b :: v

theorem hasPair_cons (a b c : Byte) (x : Bytes) :
    HasPair a b (c :: x) ↔ (c = a ∧ x.head? = some b) ∨ HasPair a b x := by
  constructor
  · rintro ⟨u, v, h⟩
    cases u with
    | nil =>
      simp only [List.nil_append, List.cons.injEq] at h
      exact Or.inl ⟨h.1, by simp [h.2]⟩
    | cons w u =>
      simp only [List.cons_append, List.cons.injEq] at h
      exact Or.inr ⟨u, v, h.2⟩
  · rintro (⟨rfl, h⟩ | ⟨u, v, rfl⟩)
    · cases x with
      | nil => simp at h
      | cons d ds => simp at h; subst h; exact ⟨[], ds, rfl⟩
    · exact ⟨c :: u, v, rfl⟩

theorem not_hasPair_nil (a b : Byte) : ¬ HasPair a b [] := by
  rintro ⟨u, v, h⟩; simp at h

instance decHasPair (a b : Byte) : (x : Bytes) → Decidable (HasPair a b x)
  | [] => isFalse (not_hasPair_nil a b)
  | c :: x =>
    have := decHasPair a b x
    decidable_of_iff' _ (hasPair_cons a b c x)

theorem unescKeep_eq_iff (chars x : Bytes) :
    unescKeep chars x = x ↔ ∀ d, Escapable d → d ∉ chars → ¬ HasPair BS d x := by
  fun_induction unescKeep chars x with
  | case1 => simp [not_hasPair_nil]
  | case2 c => simp [hasPair_cons, not_hasPair_nil]
  | case3 c d rest h ih =>
    obtain ⟨rfl, h2, h3⟩ := h
    constructor
    · intro he
      have := unescKeep_length chars rest
      have hl := congrArg List.length he
      simp only [List.length_cons] at hl
      omega
    · intro he
      exact absurd ⟨[], rest, rfl⟩ (he d h2 h3)
  | case4 c d rest h ih =>
    rw [List.cons.injEq, ih]
    constructor
    · rintro ⟨-, hh⟩ e he hne
      rw [hasPair_cons]
      rintro (⟨rfl, h2⟩ | h2)
      · simp at h2; subst h2; exact h ⟨rfl, he, hne⟩
      · exact hh e he hne h2
    · intro hh
      refine ⟨rfl, fun e he hne h2 => hh e he hne ?_⟩
      rw [hasPair_cons]; exact Or.inr h2

theorem unescape_escape_iff (chars : Bytes) (hs : ∀ c ∈ chars, Escapable c) (x : Bytes) :
    unescL (escL chars x) = x ↔ ∀ d, Escapable d → d ∉ chars → ¬ HasPair BS d x := by
  rw [unescL_escL chars hs, unescKeep_eq_iff]

/-! ## Escaped text contains no unescaped delimiter -/

theorem noDelim_escL (til chars : Bytes) (h : ∀ c ∈ til, c ∈ chars) (hb : BS ∉ til) (p : Byte)
    (x : Bytes) : NoDelim til p (escL chars x) := by
  induction x generalizing p with
  | nil => trivial
  | cons c cs ih =>
    simp only [escL]
    split
    · exact ⟨Or.inr hb, Or.inl rfl, ih c⟩
    · rename_i hc
      exact ⟨Or.inr fun hm => hc (h c hm), ih c⟩

theorem lastD_escL (chars : Bytes) (p : Byte) (x : Bytes) :
    lastD p (escL chars x) = lastD p x := by
  induction x generalizing p with
  | nil => rfl
  | cons c cs ih =>
    simp only [escL]
    split <;> simp [lastD, ih]

theorem escL_cons_form (til chars : Bytes) (h : ∀ c ∈ til, c ∈ chars) (hb : BS ∉ til) (c : Byte)
    (cs : Bytes) : ∃ p t, escL chars (c :: cs) = p :: t ∧ NoDelim til p t ∧
      lastD p t = lastD c cs ∧ (t = [] → p ∉ til) := by
  by_cases hc : c ∈ chars
  · refine ⟨BS, c :: escL chars cs, by simp [escL, hc], ⟨Or.inl rfl, noDelim_escL til chars h hb c cs⟩,
      ?_, by simp⟩
    simp [lastD, lastD_escL]
  · refine ⟨c, escL chars cs, by simp [escL, hc], noDelim_escL til chars h hb c cs, ?_, ?_⟩
    · simp [lastD_escL]
    · intro _ hm; exact hc (h c hm)

/-- A non-empty escaped part, not ending in a backslash, followed by a
delimiter, is read back as one token. -/
theorem tokL_escL (til chars : Bytes) (h : ∀ c ∈ til, c ∈ chars) (hb : BS ∉ til)
    (x : Bytes) (hx : x ≠ []) (hl : x.getLast? ≠ some BS) (d : Byte) (hd : d ∈ til) (r : Bytes) :
    tokL til (escL chars x ++ d :: r) = (escL chars x, d :: r) := by
  cases x with
  | nil => exact absurd rfl hx
  | cons c cs =>
    obtain ⟨p, t, h1, h2, h3, h4⟩ := escL_cons_form til chars h hb c cs
    rw [h1]
    apply tokL_of_noDelim til p t d r h2 _ hd
    rw [h3]
    rw [lastD_eq] at hl
    intro he; exact hl (by rw [he])

theorem tokL_escL_nil (til chars : Bytes) (h : ∀ c ∈ til, c ∈ chars) (hb : BS ∉ til)
    (x : Bytes) : tokL til (escL chars x) = (escL chars x, []) := by
  cases x with
  | nil => rfl
  | cons c cs =>
    obtain ⟨p, t, h1, h2, h3, h4⟩ := escL_cons_form til chars h hb c cs
    rw [h1]
    exact tokL_of_noDelim_nil til p t h2 h4

/-! ## Quoted strings -/

/-- Structural `QuotedString` after the opening quote: contents, remainder and
whether an escaped quote was seen. -/
def quotSplit (prev : Byte) : Bytes → Option (Bytes × Bytes × Bool)
  | [] => none
  | c :: cs =>
    if c = DQ ∧ prev ≠ BS then some ([], cs, false)
    else (quotSplit c cs).map fun (a, r, e) => (c :: a, r, c == DQ || e)

theorem quotedLoop_eq (rest : Bytes) (pre : Bytes) (p : Byte) (e : Bool) (fuel : Nat)
    (hpre : (pre ++ [p]).head? = some DQ)
    (hf : rest.length < fuel) :
    quotedLoop (pre ++ p :: rest) fuel pre.length e =
      match quotSplit p rest with
      | none => .ok (.error .missingTrailing)
      | some (a, r, e') =>
        .ok (.ok (if e || e' then unescL ((pre ++ [p]).tail ++ a) else (pre ++ [p]).tail ++ a, r)) := by
  induction rest generalizing pre p e fuel with
  | nil =>
    obtain ⟨f, rfl⟩ : ∃ f, fuel = f + 1 := ⟨fuel - 1, by omega⟩
    rw [quotedLoop]
    simp [quotSplit]
  | cons c cs ih =>
    obtain ⟨f, rfl⟩ : ∃ f, fuel = f + 1 := ⟨fuel - 1, by omega⟩
    have hf' : cs.length < f := by simp at hf; omega
    have ih' := fun e => ih (pre ++ [p]) c e f (by cases pre <;> simpa using hpre) hf'
    simp only [List.append_assoc, List.cons_append, List.nil_append, List.length_append,
      List.length_singleton] at ih'
    rw [quotedLoop, if_neg (by simp)]
    have hd : idx (pre ++ p :: c :: cs) (pre.length + 1) = .ok c := by
      have := idx_pre (pre ++ [p]) cs c (pre.length + 1) (by simp)
      simpa using this
    simp only [hd, Go.ok_bind, Nat.add_sub_cancel, idx_pre pre (c :: cs) p pre.length rfl]
    have htail : (pre ++ p :: [c]).tail = (pre ++ [p]).tail ++ [c] := by cases pre <;> simp
    by_cases hc : c = DQ
    · subst hc
      by_cases hp : p = BS
      · subst hp
        rw [if_pos rfl, if_pos rfl, ih']
        simp only [quotSplit, ne_eq, not_true_eq_false, and_false, if_false]
        cases quotSplit DQ cs with
        | none => rfl
        | some v => obtain ⟨a, r, e'⟩ := v; simp [htail]
      · rw [if_pos rfl, if_neg hp, slice_ok (by simp) (by simp), sliceFrom_ok (by simp; omega)]
        have h1 : List.drop 1 ((pre ++ p :: DQ :: cs).take (pre.length + 1)) = (pre ++ [p]).tail := by
          rw [List.take_append, List.take_of_length_le (by omega)]; simp [List.drop_one]
        have h2 : (pre ++ p :: DQ :: cs).drop (pre.length + 1 + 1) = cs := by
          rw [List.drop_append, List.drop_eq_nil_of_le (by omega)]
          have : pre.length + 1 + 1 - pre.length = 2 := by omega
          simp [this]
        have h3 : quotSplit p (DQ :: cs) = some ([], cs, false) := by
          simp only [quotSplit, ne_eq, true_and]; rw [if_pos hp]
        rw [h1, h2, h3]
        cases e <;> simp [unescape_eq]
    · rw [if_neg hc, ih']
      have h3 : quotSplit p (c :: cs) =
          (quotSplit c cs).map fun (a, r, e) => (c :: a, r, c == DQ || e) := by
        simp [quotSplit, hc]
      rw [h3]
      cases quotSplit c cs with
      | none => rfl
      | some v => obtain ⟨a, r, e'⟩ := v; simp [htail, hc]

theorem quotedString_eq (s : Bytes) :
    quotedString s = .ok (
      match s with
      | [] => .error .tooShort
      | [_] => .error .tooShort
      | c :: d :: cs =>
        if c ≠ DQ then .error .firstChar
        else match quotSplit c (d :: cs) with
          | none => .error .missingTrailing
          | some (a, r, e) => .ok (if e then unescL a else a, r)) := by
  match s with
  | [] => rfl
  | [_] => rfl
  | c :: d :: cs =>
    unfold quotedString
    rw [if_neg (by simp)]
    simp only [idx, List.getElem?_cons_zero, Go.ok_bind]
    by_cases hc : c = DQ
    · subst hc
      have := quotedLoop_eq (d :: cs) [] DQ false ((DQ :: d :: cs).length + 1) rfl (by simp)
      simp only [List.nil_append, List.length_nil, Bool.false_or, List.tail_cons] at this
      simp only [ne_eq, not_true_eq_false, if_false]
      rw [this]
      cases quotSplit DQ (d :: cs) with
      | none => rfl
      | some v => rfl
    · simp [hc]

theorem quotSplit_rem_length (p : Byte) (s a r : Bytes) (e : Bool)
    (h : quotSplit p s = some (a, r, e)) : a.length + 1 + r.length = s.length := by
  induction s generalizing p a r e with
  | nil => simp [quotSplit] at h
  | cons c cs ih =>
    simp only [quotSplit] at h
    split at h
    · simp only [Option.some.injEq, Prod.mk.injEq] at h
      obtain ⟨rfl, rfl, -⟩ := h
      simp; omega
    · cases hq : quotSplit c cs with
      | none => simp [hq] at h
      | some v =>
        obtain ⟨a', r', e'⟩ := v
        simp only [hq, Option.map_some, Option.some.injEq, Prod.mk.injEq] at h
        obtain ⟨rfl, rfl, -⟩ := h
        have := ih c a' r' e' hq
        simp only [List.length_cons]; omega

/-- Reading over an escaped body that does not end the string. -/
theorem quotSplit_escL (p : Byte) (x rest : Bytes) :
    quotSplit p (escL [DQ] x ++ rest) =
      (quotSplit (lastD p x) rest).map fun (a, r, e) =>
        (escL [DQ] x ++ a, r, decide (DQ ∈ x) || e) := by
  induction x generalizing p with
  | nil => simp [escL, lastD]
  | cons c cs ih =>
    by_cases hc : c = DQ
    · subst hc
      simp only [escL, List.mem_singleton, if_true, List.cons_append, lastD]
      have h1 : quotSplit p (BS :: DQ :: (escL [DQ] cs ++ rest)) =
          (quotSplit DQ (escL [DQ] cs ++ rest)).map fun (a, r, e) => (BS :: DQ :: a, r, true) := by
        simp only [quotSplit]
        rw [if_neg (fun h => absurd h.1 (by decide)), if_neg (by simp)]
        cases quotSplit DQ (escL [DQ] cs ++ rest) with
        | none => rfl
        | some v => simp
      rw [h1, ih]
      cases quotSplit (lastD DQ cs) rest with
      | none => rfl
      | some v => simp
    · simp only [escL, List.mem_singleton, hc, if_false, List.cons_append, lastD, quotSplit, false_and]
      rw [ih]
      cases quotSplit (lastD c cs) rest with
      | none => rfl
      | some v =>
        have : ¬ DQ = c := fun h => hc h.symm
        simp [hc, this]

theorem quotedString_roundtrip_iff (x tail : Bytes) :
    quotedString (escapeQuotedString x ++ tail) = .ok (.ok (x, tail)) ↔
      x.getLast? ≠ some BS ∧ (DQ ∉ x ∨ ∀ d, Escapable d → d ≠ DQ → ¬ HasPair BS d x) := by
  rw [escapeQuotedString_eq, quotedString_eq]
  have hform : DQ :: escL [DQ] x ++ [DQ] ++ tail = DQ :: (escL [DQ] x ++ DQ :: tail) := by simp
  rw [hform]
  obtain ⟨d, cs, hdc⟩ : ∃ d cs, escL [DQ] x ++ DQ :: tail = d :: cs := by
    cases h : escL [DQ] x with
    | nil => exact ⟨DQ, tail, rfl⟩
    | cons a b => exact ⟨a, b ++ DQ :: tail, rfl⟩
  rw [hdc]
  simp only [ne_eq, not_true_eq_false, if_false]
  rw [← hdc, quotSplit_escL]
  have hlast : x.getLast? = some BS ↔ lastD DQ x = BS := by
    cases x with
    | nil => simp [lastD]; decide
    | cons c cs => rw [lastD_eq]; simp [lastD]
  by_cases hl : lastD DQ x = BS
  · -- the closing quote is taken for an escaped one
    constructor
    · intro h
      exfalso
      cases hq : quotSplit (lastD DQ x) (DQ :: tail) with
      | none => simp [hq] at h
      | some v =>
        obtain ⟨a, r, e⟩ := v
        simp only [hq, Option.map_some, Go.ok.injEq, Except.ok.injEq, Prod.mk.injEq] at h
        simp only [hl, quotSplit, ne_eq, not_true_eq_false, and_false, if_false] at hq
        cases hq2 : quotSplit DQ tail with
        | none => simp [hq2] at hq
        | some w =>
          obtain ⟨a2, r2, e2⟩ := w
          simp only [hq2, Option.map_some, Option.some.injEq, Prod.mk.injEq] at hq
          have := quotSplit_rem_length _ _ _ _ _ hq2
          have h3 : r = tail := h.2
          rw [hq.2.1, h3] at this
          omega
    · rintro ⟨h, -⟩; exact absurd (hlast.2 hl) h
  · have h1 : quotSplit (lastD DQ x) (DQ :: tail) = some ([], tail, false) := by
      simp [quotSplit, hl]
    rw [h1]
    have hne : x.getLast? ≠ some BS := fun h => hl (hlast.1 h)
    simp only [Option.map_some, List.append_nil, Bool.or_false, Go.ok.injEq, Except.ok.injEq,
      Prod.mk.injEq, and_true, hne, not_false_eq_true, true_and]
    by_cases hq : DQ ∈ x
    · simp only [hq, decide_true, if_true, not_true_eq_false, false_or]
      rw [unescape_escape_iff [DQ] (by intro c hc; simp at hc; subst hc; decide)]
      simp
    · simp only [hq, decide_false, Bool.false_eq_true, if_false, not_false_eq_true, true_or, iff_true]
      apply escL_id
      intro c hc; simp only [List.mem_singleton]; rintro rfl; exact hq hc

/-! ## ParseTags -/

/-- One iteration of the tag loop. -/
theorem parseTagsLoop_unfold (m : Bytes) (f : Nat) (line : Bytes) (tags : List Tag) :
    parseTagsLoop m (f + 1) line tags =
      match line with
      | [] => .ok (some ⟨m, tags, []⟩)
      | c :: cs =>
        if c = SP then .ok (some ⟨m, tags, cs⟩)
        else match (tokL b!"= ," cs).2 with
          | [] => .ok none
          | e :: es =>
            if e ≠ EQ then .ok none
            else if unescL (tokL b!", " es).1 = [] then .ok none
            else parseTagsLoop m f (tokL b!", " es).2
              (tags ++ [⟨unescL (tokL b!"= ," cs).1, unescL (tokL b!", " es).1⟩]) := by
  rw [parseTagsLoop]
  cases line with
  | nil => rfl
  | cons c cs =>
    rw [if_neg (by simp)]
    simp only [idx, List.getElem?_cons_zero, Go.ok_bind, sliceFrom, List.length_cons,
      Nat.le_add_left, if_true, List.drop_succ_cons, List.drop_zero]
    split
    · rfl
    · rw [tokenU_eq]
      simp only [Go.ok_bind]
      cases h2 : (tokL b!"= ," cs).2 with
      | nil => rfl
      | cons e es =>
        rw [if_neg (by simp)]
        simp only [List.getElem?_cons_zero, Go.ok_bind, List.length_cons,
          Nat.le_add_left, if_true, List.drop_succ_cons, List.drop_zero]
        split
        · rfl
        · rw [tokenU_eq]
          simp only [Go.ok_bind, List.length_eq_zero_iff, Go.pure_eq]

theorem tokL_length (til s : Bytes) : (tokL til s).1.length + (tokL til s).2.length = s.length := by
  have := congrArg List.length (tokL_append til s)
  simpa using this

theorem parseTagsLoop_safe (m : Bytes) (fuel : Nat) (line : Bytes) (tags : List Tag)
    (hf : line.length < fuel) : Go.Safe (parseTagsLoop m fuel line tags) := by
  induction fuel generalizing line tags with
  | zero => omega
  | succ f ih =>
    rw [parseTagsLoop_unfold]
    cases line with
    | nil => simp
    | cons c cs =>
      simp only
      split
      · simp
      · have hk := tokL_length b!"= ," cs
        cases h2 : (tokL b!"= ," cs).2 with
        | nil => simp
        | cons e es =>
          rw [h2] at hk
          have hv := tokL_length b!", " es
          simp only
          split
          · simp
          · split
            · simp
            · apply ih
              simp only [List.length_cons] at hk hv hf
              omega

theorem parseTags_eq (line : Bytes) :
    parseTags line =
      if (tokL b!", " line).2 = [] then .ok (some ⟨unescL (tokL b!", " line).1, [], []⟩)
      else parseTagsLoop (unescL (tokL b!", " line).1) ((tokL b!", " line).2.length + 1)
        (tokL b!", " line).2 [] := by
  unfold parseTags
  rw [tokenU_eq]
  simp only [Go.ok_bind, List.length_eq_zero_iff, Go.pure_eq]

theorem parseTags_safe (line : Bytes) : Go.Safe (parseTags line) := by
  rw [parseTags_eq]
  split
  · simp
  · exact parseTagsLoop_safe _ _ _ _ (by omega)

/-- More fuel does not change the result. -/
theorem parseTagsLoop_fuel (m : Bytes) (f1 f2 : Nat) (line : Bytes) (tags : List Tag)
    (h1 : line.length < f1) (h2 : line.length < f2) :
    parseTagsLoop m f1 line tags = parseTagsLoop m f2 line tags := by
  induction f1 generalizing f2 line tags with
  | zero => omega
  | succ f ih =>
    obtain ⟨g, rfl⟩ : ∃ g, f2 = g + 1 := ⟨f2 - 1, by omega⟩
    rw [parseTagsLoop_unfold, parseTagsLoop_unfold]
    cases line with
    | nil => rfl
    | cons c cs =>
      simp only
      split
      · rfl
      · have hk := tokL_length b!"= ," cs
        cases he : (tokL b!"= ," cs).2 with
        | nil => rfl
        | cons e es =>
          rw [he] at hk
          have hv := tokL_length b!", " es
          simp only
          split
          · rfl
          · split
            · rfl
            · simp only [List.length_cons] at hk hv h1 h2
              apply ih <;> omega

theorem parseTagsLoop_step (m : Bytes) (f : Nat) (c : Byte) (cs : Bytes) (tags : List Tag)
    (hc : c ≠ SP) (k v : Bytes) (es line' : Bytes)
    (hk : tokL b!"= ," cs = (k, EQ :: es)) (hv : tokL b!", " es = (v, line')) (hne : unescL v ≠ []) :
    parseTagsLoop m (f + 1) (c :: cs) tags =
      parseTagsLoop m f line' (tags ++ [⟨unescL k, unescL v⟩]) := by
  rw [parseTagsLoop_unfold]
  simp only [hk, hv, if_neg hc, ne_eq, not_true_eq_false, if_false, if_neg hne]

/-- A tag key or value that survives escaping. -/
def PartOK (x : Bytes) : Prop := x ≠ [] ∧ x.getLast? ≠ some BS ∧ ¬ HasPair BS DQ x

/-- A measurement name that survives escaping. -/
def MeasOK (x : Bytes) : Prop := PartOK x ∧ ¬ HasPair BS EQ x

instance (x : Bytes) : Decidable (PartOK x) := by unfold PartOK; infer_instance
instance (x : Bytes) : Decidable (MeasOK x) := by unfold MeasOK; infer_instance

theorem unescL_escTag {x : Bytes} (h : ¬ HasPair BS DQ x) : unescL (escL b!",= " x) = x := by
  rw [unescape_escape_iff _ (by decide)]
  rintro d (rfl | rfl | rfl | rfl) hd
  · exact absurd hd (by decide)
  · exact h
  · exact absurd hd (by decide)
  · exact absurd hd (by decide)

theorem unescL_escMeas {x : Bytes} (h : ¬ HasPair BS DQ x) (h2 : ¬ HasPair BS EQ x) :
    unescL (escL b!", " x) = x := by
  rw [unescape_escape_iff _ (by decide)]
  rintro d (rfl | rfl | rfl | rfl) hd
  · exact absurd hd (by decide)
  · exact h
  · exact absurd hd (by decide)
  · exact h2

/-- The serialised tags, each preceded by a comma. -/
def commaTags (tags : List Tag) : Bytes :=
  tags.flatMap fun t => COMMA :: escL b!",= " t.key ++ EQ :: escL b!",= " t.value

theorem commaTags_eq (t : Tag) (ts : List Tag) : COMMA :: tagBytes (t :: ts) = commaTags (t :: ts) := by
  induction ts generalizing t with
  | nil => simp [tagBytes, commaTags, escapeTagPart, escape_eq]
  | cons u us ih =>
    rw [tagBytes]
    have := ih u
    simp only [commaTags, List.flatMap_cons, escapeTagPart, escape_eq] at this ⊢
    simp only [List.cons_append, List.cons.injEq, true_and] at this
    simp [this]

theorem commaTags_length (tags : List Tag) : 2 * tags.length ≤ (commaTags tags).length := by
  induction tags with
  | nil => simp
  | cons t ts ih =>
    simp only [commaTags, List.flatMap_cons, List.length_append, List.length_cons] at ih ⊢
    omega

theorem parseTagsLoop_commaTags (m : Bytes) (tags acc : List Tag) (tail : Bytes)
    (hok : ∀ t ∈ tags, PartOK t.key ∧ PartOK t.value)
    (htail : tail = [] ∨ ∃ r, tail = SP :: r) (fuel : Nat)
    (hf : (commaTags tags ++ tail).length < fuel) :
    parseTagsLoop m fuel (commaTags tags ++ tail) acc =
      .ok (some ⟨m, acc ++ tags, tail.tail⟩) := by
  induction tags generalizing acc fuel with
  | nil =>
    obtain ⟨f, rfl⟩ : ∃ f, fuel = f + 1 := ⟨fuel - 1, by omega⟩
    rcases htail with rfl | ⟨r, rfl⟩
    · simp [commaTags, parseTagsLoop]
    · simp [commaTags, parseTagsLoop, idx, sliceFrom]
  | cons t ts ih =>
    obtain ⟨f, rfl⟩ : ∃ f, fuel = f + 1 := ⟨fuel - 1, by omega⟩
    have hk := (hok t (by simp)).1
    have hv := (hok t (by simp)).2
    have hform : commaTags (t :: ts) ++ tail =
        COMMA :: (escL b!",= " t.key ++ EQ :: (escL b!",= " t.value ++ (commaTags ts ++ tail))) := by
      simp [commaTags]
    rw [hform] at hf ⊢
    have h1 := tokL_escL b!"= ," b!",= " (by decide) (by decide) t.key hk.1 hk.2.1 EQ (by decide)
      (escL b!",= " t.value ++ (commaTags ts ++ tail))
    have h2 : tokL b!", " (escL b!",= " t.value ++ (commaTags ts ++ tail)) =
        (escL b!",= " t.value, commaTags ts ++ tail) := by
      have hcase : commaTags ts ++ tail = [] ∨ ∃ d r, commaTags ts ++ tail = d :: r ∧ d ∈ b!", " := by
        cases ts with
        | nil =>
          rcases htail with rfl | ⟨r, rfl⟩
          · left; rfl
          · right; exact ⟨SP, r, rfl, by decide⟩
        | cons u us => right; exact ⟨COMMA, _, rfl, by decide⟩
      rcases hcase with h0 | ⟨d, r, h0, hd⟩
      · rw [h0, List.append_nil]
        exact tokL_escL_nil b!", " b!",= " (by decide) (by decide) t.value
      · rw [h0]
        exact tokL_escL b!", " b!",= " (by decide) (by decide) t.value hv.1 hv.2.1 d hd r
    have hu : unescL (escL b!",= " t.value) = t.value := unescL_escTag hv.2.2
    rw [parseTagsLoop_step m f COMMA _ acc (by decide) _ _ _ _ h1 h2 (by rw [hu]; exact hv.1)]
    rw [hu, unescL_escTag hk.2.2]
    have hlen : (commaTags ts ++ tail).length < f := by
      simp only [List.length_cons, List.length_append] at hf ⊢; omega
    have := ih (acc ++ [t]) (fun u hu => hok u (by simp [hu])) f hlen
    rw [List.append_assoc, List.singleton_append] at this
    exact this

/-- The header as written by the filter: measurement, and if there are tags a
comma and the serialised tags. -/
def header (m : Bytes) (tags : List Tag) : Bytes :=
  escapeMeasurement m ++ (if tags = [] then [] else COMMA :: tagBytes tags)

theorem header_eq (m : Bytes) (tags : List Tag) :
    header m tags = escL b!", " m ++ commaTags tags := by
  unfold header escapeMeasurement
  rw [escape_eq]
  cases tags with
  | nil => simp [commaTags]
  | cons t ts => rw [if_neg (by simp), commaTags_eq]

theorem parseTags_header (m : Bytes) (tags : List Tag) (tail : Bytes) (hm : MeasOK m)
    (hok : ∀ t ∈ tags, PartOK t.key ∧ PartOK t.value)
    (htail : tail = [] ∨ ∃ r, tail = SP :: r) :
    parseTags (header m tags ++ tail) = .ok (some ⟨m, tags, tail.tail⟩) := by
  rw [header_eq]
  unfold parseTags
  have hu : unescL (escL b!", " m) = m := unescL_escMeas hm.1.2.2 hm.2
  have htok : tokL b!", " (escL b!", " m ++ (commaTags tags ++ tail)) =
      (escL b!", " m, commaTags tags ++ tail) := by
    have hcase : commaTags tags ++ tail = [] ∨ ∃ d r, commaTags tags ++ tail = d :: r ∧ d ∈ b!", " := by
      cases tags with
      | nil =>
        rcases htail with rfl | ⟨r, rfl⟩
        · left; rfl
        · right; exact ⟨SP, r, rfl, by decide⟩
      | cons u us => right; exact ⟨COMMA, _, rfl, by decide⟩
    rcases hcase with h0 | ⟨d, r, h0, hd⟩
    · rw [h0, List.append_nil]
      exact tokL_escL_nil b!", " b!", " (by decide) (by decide) m
    · rw [h0]
      exact tokL_escL b!", " b!", " (by decide) (by decide) m hm.1.1 hm.1.2.1 d hd r
  rw [List.append_assoc, tokenU_eq, htok]
  simp only [Go.ok_bind, hu]
  by_cases h0 : commaTags tags ++ tail = []
  · have ht : tags = [] := by
      cases tags with
      | nil => rfl
      | cons u us => simp [commaTags] at h0
    subst ht
    have : tail = [] := by simpa [commaTags] using h0
    subst this
    simp [commaTags]
  · rw [if_neg (by simpa [List.length_eq_zero_iff] using h0)]
    rw [parseTagsLoop_commaTags m tags [] tail hok htail _ (Nat.lt_succ_self _)]
    simp

end Spout
