import Verif.Model.Influx
import Verif.Lemmas.Convert

/-! # Structural descriptions of the index loops of package `influx` -/

namespace Spout

/-! ## Escape -/

/-- Structural `Escape`. -/
def escL (chars : Bytes) : Bytes → Bytes
  | [] => []
  | b :: bs => if b ∈ chars then BS :: b :: escL chars bs else b :: escL chars bs

theorem escL_append (chars a b : Bytes) : escL chars (a ++ b) = escL chars a ++ escL chars b := by
  induction a with
  | nil => rfl
  | cons c cs ih => simp only [List.cons_append, escL, ih]; split <;> rfl

theorem containsByte_iff (s : Bytes) (b : Byte) : containsByte s b = true ↔ b ∈ s := by
  simp [containsByte]

theorem countBytes_foldl (s chars : Bytes) (n : Nat) :
    s.foldl (fun count c => if containsByte chars c then count + 1 else count) n
      = n + countBytes s chars := by
  unfold countBytes
  induction s generalizing n with
  | nil => simp
  | cons c cs ih =>
    simp only [List.foldl_cons]
    rw [ih, ih (if containsByte chars c = true then 0 + 1 else 0)]
    split <;> omega

theorem countBytes_cons (c : Byte) (s chars : Bytes) :
    countBytes (c :: s) chars = (if c ∈ chars then 1 else 0) + countBytes s chars := by
  conv => lhs; unfold countBytes
  rw [List.foldl_cons, countBytes_foldl]
  by_cases h : c ∈ chars
  · simp [containsByte_iff, h]
  · simp [containsByte_iff, h]

theorem countBytes_eq_zero (s chars : Bytes) : countBytes s chars = 0 ↔ ∀ c ∈ s, c ∉ chars := by
  induction s with
  | nil => simp [countBytes]
  | cons c cs ih =>
    rw [countBytes_cons]
    by_cases h : c ∈ chars <;> simp [h, ih]

theorem escL_id (chars s : Bytes) (h : ∀ c ∈ s, c ∉ chars) : escL chars s = s := by
  induction s with
  | nil => rfl
  | cons c cs ih =>
    simp only [List.mem_cons, forall_eq_or_imp] at h
    simp [escL, h.1, ih h.2]

theorem escape_foldl (chars s out : Bytes) :
    s.foldl (fun out b =>
      let out := if containsByte chars b then out ++ [BS] else out
      out ++ [b]) out = out ++ escL chars s := by
  induction s generalizing out with
  | nil => simp [escL]
  | cons c cs ih =>
    rw [List.foldl_cons, ih]
    by_cases h : c ∈ chars
    · simp [containsByte_iff, h, escL]
    · simp [containsByte_iff, h, escL]

theorem escape_eq (s chars : Bytes) : escape s chars = escL chars s := by
  unfold escape
  split
  · rename_i h
    have : chars = [] := List.length_eq_zero_iff.1 h
    subst this
    exact (escL_id _ _ (by simp)).symm
  · split
    · rename_i h
      exact (escL_id _ _ ((countBytes_eq_zero _ _).1 h)).symm
    · rw [escape_foldl]; rfl

theorem escapeQuotedString_eq (s : Bytes) :
    escapeQuotedString s = DQ :: escL [DQ] s ++ [DQ] := by
  unfold escapeQuotedString
  split
  · rename_i h
    rw [escL_id _ _ ((countBytes_eq_zero _ _).1 h)]
  · rename_i h
    clear h
    have : ∀ out, s.foldl (fun out b =>
        let out := if b = DQ then out ++ [BS] else out
        out ++ [b]) out = out ++ escL [DQ] s := by
      intro out
      induction s generalizing out with
      | nil => simp [escL]
      | cons c cs ih =>
        rw [List.foldl_cons, ih]
        by_cases hc : c = DQ <;> simp [hc, escL]
    rw [this]; rfl

/-! ## Unescape -/

/-- The bytes that `Unescape` treats as escapable. -/
def Escapable (d : Byte) : Prop := d = COMMA ∨ d = DQ ∨ d = SP ∨ d = EQ

instance (d : Byte) : Decidable (Escapable d) := by unfold Escapable; infer_instance

/-- Structural `Unescape`. -/
def unescL : Bytes → Bytes
  | [] => []
  | [c] => [c]
  | c :: d :: rest =>
    if c = BS ∧ Escapable d then d :: unescL rest else c :: unescL (d :: rest)

theorem unescL_id (s : Bytes) (h : BS ∉ s) : unescL s = s := by
  fun_induction unescL s with
  | case1 => rfl
  | case2 => rfl
  | case3 c d rest hc ih => simp [hc.1] at h
  | case4 c d rest hc ih =>
    rw [ih]
    simp only [List.mem_cons, not_or] at h ⊢
    exact h.2

theorem getElem?_pre (pre rest : Bytes) (k : Nat) :
    (pre ++ rest)[pre.length + k]? = rest[k]? := by
  rw [List.getElem?_append_right (by omega)]; congr 1; omega

theorem idx_pre (pre rest : Bytes) (c : Byte) (i : Nat) (hi : i = pre.length) :
    idx (pre ++ c :: rest) i = .ok c := by
  subst hi
  simp only [idx]
  have := getElem?_pre pre (c :: rest) 0
  simp only [Nat.add_zero, List.getElem?_cons_zero] at this
  rw [this]

theorem unescapeLoop_eq (rest pre out : Bytes) (fuel : Nat)
    (hf : rest.length < fuel) (ho : out.length ≤ pre.length) :
    unescapeLoop (pre ++ rest) fuel pre.length out = .ok (out ++ unescL rest) := by
  fun_induction unescL rest generalizing pre out fuel with
  | case1 =>
    cases fuel with
    | zero => omega
    | succ f => simp [unescapeLoop]
  | case2 c =>
    obtain ⟨f, rfl⟩ : ∃ f, fuel = f + 2 := ⟨fuel - 2, by simp at hf; omega⟩
    rw [unescapeLoop, if_neg (by simp)]
    simp only [idx_pre pre [] c pre.length rfl, Go.ok_bind]
    rw [if_neg (by simp)]
    have : putByte (pre ++ [c]).length out c = .ok (out ++ [c]) := by
      simp [putByte]; omega
    simp only [this, Go.ok_bind]
    rw [unescapeLoop, if_pos (by simp)]
  | case3 c d rest hc ih =>
    obtain ⟨f, rfl⟩ : ∃ f, fuel = f + 1 := ⟨fuel - 1, by omega⟩
    rw [unescapeLoop, if_neg (by simp)]
    simp only [idx_pre pre (d :: rest) c pre.length rfl, Go.ok_bind]
    rw [if_pos (by simp [hc.1])]
    have hd : idx (pre ++ c :: d :: rest) (pre.length + 1) = .ok d := by
      have := idx_pre (pre ++ [c]) rest d (pre.length + 1) (by simp)
      simpa using this
    simp only [hd, Go.ok_bind]
    have hE : d = COMMA ∨ d = DQ ∨ d = SP ∨ d = EQ := hc.2
    rw [if_pos hE]
    have : putByte (pre ++ c :: d :: rest).length out d = .ok (out ++ [d]) := by
      simp [putByte]; omega
    simp only [this, Go.ok_bind]
    have := ih (pre ++ [c, d]) (out ++ [d]) f (by simp at hf; omega) (by simp; omega)
    simpa using this
  | case4 c d rest hc ih =>
    obtain ⟨f, rfl⟩ : ∃ f, fuel = f + 1 := ⟨fuel - 1, by omega⟩
    rw [unescapeLoop, if_neg (by simp)]
    simp only [idx_pre pre (d :: rest) c pre.length rfl, Go.ok_bind]
    have hd : idx (pre ++ c :: d :: rest) (pre.length + 1) = .ok d := by
      have := idx_pre (pre ++ [c]) rest d (pre.length + 1) (by simp)
      simpa using this
    have hp : putByte (pre ++ c :: d :: rest).length out c = .ok (out ++ [c]) := by
      simp [putByte]; omega
    have := ih (pre ++ [c]) (out ++ [c]) f (by simp at hf ⊢; omega) (by simp; omega)
    simp only [List.append_assoc, List.cons_append, List.nil_append, List.length_append,
      List.length_singleton] at this
    simp only [hp, hd, Go.ok_bind]
    split
    · rename_i h
      have hE : ¬ (d = COMMA ∨ d = DQ ∨ d = SP ∨ d = EQ) := fun he => hc ⟨h.1, he⟩
      rw [if_neg hE]; exact this
    · exact this

theorem unescape_eq (s : Bytes) : unescape s = .ok (unescL s) := by
  unfold unescape
  split
  · rename_i h
    rw [unescL_id s (by simpa using h)]
  · have := unescapeLoop_eq s [] [] (s.length + 1) (by omega) (Nat.le_refl _)
    simpa using this

/-! ## token -/

/-- Structural `token` after the first byte `prev`. -/
def tokSplit (til : Bytes) (prev : Byte) : Bytes → Bytes × Bytes
  | [] => ([], [])
  | c :: cs =>
    if prev ≠ BS ∧ c ∈ til then ([], c :: cs)
    else (c :: (tokSplit til c cs).1, (tokSplit til c cs).2)

/-- Structural `token` (without the escape flag). -/
def tokL (til : Bytes) : Bytes → Bytes × Bytes
  | [] => ([], [])
  | [c] => if c ∈ til then ([], [c]) else ([c], [])
  | c :: d :: cs => (c :: (tokSplit til c (d :: cs)).1, (tokSplit til c (d :: cs)).2)

theorem tokenLoop_eq (til rest pre : Bytes) (p : Byte) (e : Bool) (fuel : Nat)
    (hf : rest.length < fuel) :
    tokenLoop (pre ++ p :: rest) til fuel pre.length e =
      .ok (pre ++ p :: (tokSplit til p rest).1, (tokSplit til p rest).2,
        e || decide (BS ∈ (p :: (tokSplit til p rest).1).dropLast)) := by
  induction rest generalizing pre p e fuel with
  | nil =>
    obtain ⟨f, rfl⟩ : ∃ f, fuel = f + 1 := ⟨fuel - 1, by omega⟩
    rw [tokenLoop]
    simp [tokSplit]
  | cons c cs ih =>
    obtain ⟨f, rfl⟩ : ∃ f, fuel = f + 1 := ⟨fuel - 1, by omega⟩
    have hf' : cs.length < f := by simp at hf; omega
    have ih' := fun e => ih (pre ++ [p]) c e f hf'
    simp only [List.append_assoc, List.cons_append, List.nil_append, List.length_append,
      List.length_singleton] at ih'
    rw [tokenLoop, if_neg (by simp)]
    simp only [Nat.add_sub_cancel, idx_pre pre (c :: cs) p pre.length rfl, Go.ok_bind]
    by_cases hp : p = BS
    · subst hp
      rw [if_pos rfl, ih']
      simp [tokSplit]
    · rw [if_neg hp]
      have hd : idx (pre ++ p :: c :: cs) (pre.length + 1) = .ok c := by
        have := idx_pre (pre ++ [p]) cs c (pre.length + 1) (by simp)
        simpa using this
      simp only [hd, Go.ok_bind]
      by_cases hc : c ∈ til
      · rw [if_pos hc, sliceTo_ok (by simp), sliceFrom_ok (by simp)]
        have h1 : (pre ++ p :: c :: cs).take (pre.length + 1) = pre ++ [p] := by
          rw [List.take_append, List.take_of_length_le (by omega)]; simp
        have h2 : (pre ++ p :: c :: cs).drop (pre.length + 1) = c :: cs := by
          rw [List.drop_append, List.drop_eq_nil_of_le (by omega)]; simp
        simp [tokSplit, hp, hc, h1, h2]
      · rw [if_neg hc, ih']
        have hp' : ¬ (BS = p) := fun h => hp h.symm
        simp [tokSplit, hp, hc, hp']

/-- `token` computes `tokL`; the flag says whether a backslash occurs before
the last byte of the token. -/
theorem token_eq (s til : Bytes) :
    token s til = .ok ((tokL til s).1, (tokL til s).2, decide (BS ∈ (tokL til s).1.dropLast)) := by
  match s with
  | [] => simp [token, tokenLoop, tokL]
  | [c] =>
    unfold token
    simp only [List.length_singleton, if_true, idx, List.getElem?_cons_zero, Go.ok_bind, tokL]
    split <;> simp
  | c :: d :: cs =>
    have hl : (c :: d :: cs).length ≠ 1 := by simp
    unfold token
    rw [if_neg hl]
    have := tokenLoop_eq til (d :: cs) [] c false ((c :: d :: cs).length + 1) (by simp)
    simp only [List.nil_append, Bool.false_or, List.length_nil] at this
    exact this

/-- A trailing backslash alone does not make a difference to `Unescape`. -/
theorem unescL_of_not_dropLast (t : Bytes) (h : BS ∉ t.dropLast) : unescL t = t := by
  fun_induction unescL t with
  | case1 => rfl
  | case2 => rfl
  | case3 c d rest hc ih => simp [hc.1] at h
  | case4 c d rest hc ih =>
    rw [ih]
    simp only [List.dropLast_cons_cons, List.mem_cons, not_or] at h
    exact h.2

theorem tokenU_eq (s til : Bytes) :
    tokenU s til = .ok (unescL (tokL til s).1, (tokL til s).2) := by
  unfold tokenU
  rw [token_eq]
  simp only [Go.ok_bind]
  by_cases h : BS ∈ (tokL til s).1.dropLast
  · simp [h, unescape_eq]
  · simp [h, unescL_of_not_dropLast _ h]

theorem tokenEscaped_eq (s til : Bytes) : tokenEscaped s til = .ok (tokL til s) := by
  unfold tokenEscaped
  rw [token_eq]; rfl

theorem tokSplit_append (til : Bytes) (p : Byte) (s : Bytes) :
    (tokSplit til p s).1 ++ (tokSplit til p s).2 = s := by
  induction s generalizing p with
  | nil => rfl
  | cons c cs ih =>
    simp only [tokSplit]
    split
    · rfl
    · simp [ih]

theorem tokL_append (til s : Bytes) : (tokL til s).1 ++ (tokL til s).2 = s := by
  match s with
  | [] => rfl
  | [c] => simp only [tokL]; split <;> rfl
  | c :: d :: cs => simp only [tokL, List.cons_append, tokSplit_append]

/-- No byte of the list is an unescaped delimiter, given the byte before it. -/
def NoDelim (til : Bytes) : Byte → Bytes → Prop
  | _, [] => True
  | p, c :: cs => (p = BS ∨ c ∉ til) ∧ NoDelim til c cs

/-- Last element of a list given the byte before it. -/
def lastD (p : Byte) : Bytes → Byte
  | [] => p
  | c :: cs => lastD c cs

theorem lastD_eq (p : Byte) (t : Bytes) : (p :: t).getLast? = some (lastD p t) := by
  induction t generalizing p with
  | nil => rfl
  | cons c cs ih => rw [List.getLast?_cons_cons, ih]; rfl

theorem lastD_append_cons (p : Byte) (a : Bytes) (c : Byte) (b : Bytes) :
    lastD p (a ++ c :: b) = lastD c b := by
  induction a generalizing p with
  | nil => rfl
  | cons d ds ih => simp only [List.cons_append, lastD]; exact ih d

theorem tokSplit_noDelim (til : Bytes) (p : Byte) (s : Bytes) :
    NoDelim til p (tokSplit til p s).1 := by
  induction s generalizing p with
  | nil => trivial
  | cons c cs ih =>
    simp only [tokSplit]
    split
    · trivial
    · rename_i h
      refine ⟨?_, ih c⟩
      by_cases hp : p = BS
      · exact Or.inl hp
      · exact Or.inr fun hc => h ⟨hp, hc⟩

theorem tokSplit_rem (til : Bytes) (p : Byte) (s : Bytes) :
    (tokSplit til p s).2 = [] ∨
      ∃ d r, (tokSplit til p s).2 = d :: r ∧ d ∈ til ∧ lastD p (tokSplit til p s).1 ≠ BS := by
  induction s generalizing p with
  | nil => exact Or.inl rfl
  | cons c cs ih =>
    simp only [tokSplit]
    split
    · rename_i h
      exact Or.inr ⟨c, cs, rfl, h.2, h.1⟩
    · exact ih c

/-- The key rewriting lemma: a token body without unescaped delimiters is cut
exactly at the delimiter that follows. -/
theorem tokSplit_of_noDelim (til : Bytes) (p : Byte) (t : Bytes) (d : Byte) (r : Bytes)
    (h : NoDelim til p t) (hl : lastD p t ≠ BS) (hd : d ∈ til) :
    tokSplit til p (t ++ d :: r) = (t, d :: r) := by
  induction t generalizing p with
  | nil => simp only [lastD] at hl; simp [tokSplit, hl, hd]
  | cons c cs ih =>
    obtain ⟨h1, h2⟩ := h
    simp only [List.cons_append, tokSplit, ih c h2 hl]
    rw [if_neg]
    rintro ⟨a, b⟩
    rcases h1 with h1 | h1
    · exact a h1
    · exact h1 b

theorem tokSplit_of_noDelim_nil (til : Bytes) (p : Byte) (t : Bytes)
    (h : NoDelim til p t) : tokSplit til p t = (t, []) := by
  induction t generalizing p with
  | nil => rfl
  | cons c cs ih =>
    obtain ⟨h1, h2⟩ := h
    simp only [tokSplit, ih c h2]
    rw [if_neg]
    rintro ⟨a, b⟩
    rcases h1 with h1 | h1
    · exact a h1
    · exact h1 b

theorem tokL_of_noDelim (til : Bytes) (p : Byte) (t : Bytes) (d : Byte) (r : Bytes)
    (h : NoDelim til p t) (hl : lastD p t ≠ BS) (hd : d ∈ til) :
    tokL til (p :: t ++ d :: r) = (p :: t, d :: r) := by
  cases t with
  | nil =>
    have := tokSplit_of_noDelim til p [] d r h hl hd
    simp only [List.nil_append] at this
    simp [tokL, this]
  | cons c cs =>
    have := tokSplit_of_noDelim til p (c :: cs) d r h hl hd
    simp only [List.cons_append] at this ⊢
    simp only [tokL, this]

theorem tokL_of_noDelim_nil (til : Bytes) (p : Byte) (t : Bytes)
    (h : NoDelim til p t) (hp : t = [] → p ∉ til) :
    tokL til (p :: t) = (p :: t, []) := by
  cases t with
  | nil => simp [tokL, hp rfl]
  | cons c cs =>
    have := tokSplit_of_noDelim_nil til p (c :: cs) h
    simp only [tokL, this]

theorem noDelim_iff (til : Bytes) (p : Byte) (t : Bytes) :
    NoDelim til p t ↔ ∀ i, i < t.length → ∀ c, t[i]? = some c → c ∈ til →
      (p :: t)[i]? = some BS := by
  induction t generalizing p with
  | nil => simp [NoDelim]
  | cons c cs ih =>
    simp only [NoDelim]
    rw [ih]
    constructor
    · rintro ⟨h1, h2⟩ i hi d hd hm
      cases i with
      | zero =>
        simp at hd; subst hd
        rcases h1 with h1 | h1
        · simp [h1]
        · exact absurd hm h1
      | succ i =>
        have := h2 i (by simpa using hi) d (by simpa using hd) hm
        simpa using this
    · intro h
      constructor
      · by_cases hm : c ∈ til
        · have := h 0 (by simp) c rfl hm
          simp at this; exact Or.inl this
        · exact Or.inr hm
      · intro i hi d hd hm
        have := h (i + 1) (by simpa using hi) d (by simpa using hd) hm
        simpa using this

end Spout
