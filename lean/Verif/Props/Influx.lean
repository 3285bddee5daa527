import Verif.Lemmas.InfluxTags
import Verif.Lemmas.Subset
import Verif.Lemmas.Timestamps

/-! # Properties of package `influx` (C06, C07, C09–C14, C19) -/

set_option linter.unusedSimpArgs false

namespace Spout
open Spec

/-! ## C06: timestamps -/

/-- The constant really is the length of the printed maximum. -/
theorem maxTsLen_eq : (itoa maxNanoTime).length = maxTsLen := by
  simp [itoa, maxNanoTime, maxTsLen, natDigits]

/-- **C06 (ExtractTimestamp).** The reported value and offset are exactly those
of the trailing timestamp if there is one … -/
theorem C06_timestamp_found {line : Bytes} {v off : Int} (h : HasTs line v off) :
    extractTimestamp line = .ok (v, off) := extractTimestamp_some h

/-- … and offset −1 is reported exactly when there is none; it never reports
anything else. -/
theorem C06_timestamp_absent {line : Bytes} (h : ∀ v off, ¬ HasTs line v off) :
    extractTimestamp line = .ok (-1, -1) := extractTimestamp_none h

/-- **C06, both directions in one statement.** -/
theorem C06_timestamp_exact (line : Bytes) (v off : Int) (hoff : off ≠ -1) :
    extractTimestamp line = .ok (v, off) ↔ HasTs line v off := by
  constructor
  · intro h
    by_cases hx : ∃ v off, HasTs line v off
    · obtain ⟨v', off', hx⟩ := hx
      rw [extractTimestamp_some hx] at h
      simp only [Go.ok.injEq, Prod.mk.injEq] at h
      obtain ⟨rfl, rfl⟩ := h
      exact hx
    · rw [extractTimestamp_none (by simpa using hx)] at h
      simp only [Go.ok.injEq, Prod.mk.injEq] at h
      exact absurd h.2.symm hoff
  · exact extractTimestamp_some

/-- **C06 (ExtractNanos), exact.** It finds the trailing timestamp exactly when
in addition the space before it is the first one among the last 20 bytes
(without newline) of the line. -/
theorem C06_nanos_exact (line : Bytes) (v off : Int) (hoff : off ≠ -1) :
    extractNanos line = .ok (v, off) ↔
      6 ≤ line.length ∧ ∃ pre ts, stripNL line = pre ++ SP :: ts ∧ ts.length ≤ 19 ∧
        Decimal ts v ∧ InInt64 v ∧ off = pre.length + 1 ∧
        SP ∉ pre.drop (pre.length + 1 + ts.length - 20) := by
  constructor
  · intro h
    by_cases hx : ∃ pre ts v, 6 ≤ line.length ∧
      stripNL line = pre ++ SP :: ts ∧ ts.length ≤ 19 ∧ Decimal ts v ∧ InInt64 v ∧
      SP ∉ pre.drop (pre.length + ts.length - 19)
    · obtain ⟨pre, ts, w, h6, hb, hl, hd, hw, hn⟩ := hx
      rw [extractNanos_some h6 hb hl hd hw hn] at h
      simp only [Go.ok.injEq, Prod.mk.injEq] at h
      obtain ⟨rfl, rfl⟩ := h
      refine ⟨h6, pre, ts, hb, hl, hd, hw, rfl, ?_⟩
      have : pre.length + 1 + ts.length - 20 = pre.length + ts.length - 19 := by omega
      rw [this]; exact hn
    · rw [extractNanos_none hx] at h
      simp only [Go.ok.injEq, Prod.mk.injEq] at h
      exact absurd h.2.symm hoff
  · rintro ⟨h6, pre, ts, hb, hl, hd, hv, rfl, hn⟩
    have : pre.length + 1 + ts.length - 20 = pre.length + ts.length - 19 := by omega
    rw [this] at hn
    exact extractNanos_some h6 hb hl hd hv hn

/-- **C06 (ExtractNanos), soundness and full-length completeness.**  A reported
timestamp is the line's timestamp; every 19-character timestamp (all dates from
2001-09-09 to 2262) is found. -/
theorem C06_nanos_sound {line : Bytes} {v off : Int} (h : extractNanos line = .ok (v, off))
    (hoff : off ≠ -1) : HasTs line v off := by
  obtain ⟨h6, pre, ts, hb, hl, hd, hv, ho, -⟩ := (C06_nanos_exact line v off hoff).1 h
  exact ⟨h6, pre, ts, hb, hl, hd, hv, ho⟩

theorem C06_nanos_full_length {line pre ts : Bytes} {v : Int}
    (hb : stripNL line = pre ++ SP :: ts) (hl : ts.length = 19) (hd : Decimal ts v)
    (hv : InInt64 v) : extractNanos line = .ok (v, pre.length + 1) := by
  have h6 : 6 ≤ line.length := by
    have h1 : (stripNL line).length ≤ line.length := by unfold stripNL; split <;> simp
    rw [hb] at h1; simp at h1; omega
  apply extractNanos_some h6 hb (by omega) hd hv
  rw [hl, Nat.add_sub_cancel, List.drop_length]
  simp

/-- Without a timestamp `ExtractNanos` reports −1/−1. -/
theorem C06_nanos_absent {line : Bytes} (h : ∀ v off, ¬ HasTs line v off) :
    extractNanos line = .ok (-1, -1) := by
  apply extractNanos_none
  rintro ⟨pre, ts, v, h6, hb, hl, hd, hv, -⟩
  exact h v (pre.length + 1) ⟨h6, pre, ts, hb, hl, hd, hv, rfl⟩

/-- Test: a short timestamp after a short field is missed by `ExtractNanos` (the window holds two
spaces), but found by `ExtractTimestamp`. -/
theorem C06_nanos_short_missed :
    HasTs b!"m f=1 1234567" 1234567 6 ∧ extractNanos b!"m f=1 1234567" = .ok (-1, -1) ∧
    extractTimestamp b!"m f=1 1234567" = .ok (1234567, 6) := by
  refine ⟨⟨by decide, b!"m f=1", b!"1234567", by decide, by decide,
    ⟨b!"1234567", by decide, by decide, Or.inl (by decide)⟩, by decide, by decide⟩,
    by decide +kernel, by decide +kernel⟩

example : HasTs b!"cpu,host=a usage=1.5 1500000000000000000\n" 1500000000000000000 21 :=
  ⟨by decide, b!"cpu,host=a usage=1.5", b!"1500000000000000000", by decide, by decide,
    ⟨b!"1500000000000000000", by decide, by decide, Or.inl ⟨rfl, by decide +kernel⟩⟩, by decide, by decide⟩
example : extractNanos b!"cpu,host=a usage=1.5 1500000000000000000\n" = .ok (1500000000000000000, 21) := by
  decide +kernel

/-! ## C07: scaling -/

/-- Nanoseconds per unit, as documented by InfluxDB. -/
def unitNanos (p : Bytes) : Int :=
  if p = b!"h" then 60 * 60 * 1000000000
  else if p = b!"m" then 60 * 1000000000
  else if p = b!"s" then 1000000000
  else if p = b!"ms" then 1000000
  else if p = b!"u" then 1000
  else 1

/-- **C07.** Scaling succeeds iff the mathematical product is representable
(strictly inside the two reserved values at either end), and is then exact. -/
theorem C07_scaling_exact (ts : Int) (p : Bytes) (t : Int) (hts : InInt64 ts) :
    safeCalcTime ts p = some t ↔
      t = ts * unitNanos p ∧ -(2 ^ 63) + 2 ≤ t ∧ t ≤ 2 ^ 63 - 2 := by
  have hu : precisionMultiplier p = unitNanos p := by
    unfold precisionMultiplier unitNanos
    by_cases h1 : p = b!"u"
    · subst h1; decide
    by_cases h2 : p = b!"ms"
    · subst h2; decide
    by_cases h3 : p = b!"s"
    · subst h3; decide
    by_cases h4 : p = b!"m"
    · subst h4; decide
    by_cases h5 : p = b!"h"
    · subst h5; decide
    simp [h1, h2, h3, h4, h5]
  rw [safeCalcTime_eq ts p hts, hu]
  unfold minNanoTime maxNanoTime
  generalize ts * unitNanos p = x
  constructor
  · intro h
    split at h
    · injection h with h; subst h; rename_i hc; exact ⟨rfl, by omega, by omega⟩
    · cases h
  · rintro ⟨rfl, h1, h2⟩
    rw [if_pos (by omega)]

example : safeCalcTime 1500000000 b!"s" = some 1500000000000000000 := by decide +kernel
example : safeCalcTime 9223372037 b!"s" = none := by decide +kernel
example : InInt64 9223372036854775807 ∧ safeCalcTime 9223372036854775807 b!"h" = none := by
  decide +kernel

/-! ## C09–C11: escaping -/

/-- **C09.** -/
theorem C09_tag_escape_roundtrip (x : Bytes) :
    unescape (escapeTagPart x) = .ok x ↔ ¬ HasPair BS DQ x := by
  unfold escapeTagPart
  rw [escape_eq, unescape_eq, Go.ok.injEq, unescape_escape_iff _ (by decide)]
  constructor
  · intro h; exact h DQ (by decide) (by decide)
  · rintro h d (rfl | rfl | rfl | rfl) hd
    · exact absurd hd (by decide)
    · exact h
    · exact absurd hd (by decide)
    · exact absurd hd (by decide)

/-- **C10.** -/
theorem C10_measurement_escape_roundtrip (x : Bytes) :
    unescape (escapeMeasurement x) = .ok x ↔ ¬ HasPair BS DQ x ∧ ¬ HasPair BS EQ x := by
  unfold escapeMeasurement
  rw [escape_eq, unescape_eq, Go.ok.injEq, unescape_escape_iff _ (by decide)]
  constructor
  · intro h; exact ⟨h DQ (by decide) (by decide), h EQ (by decide) (by decide)⟩
  · rintro ⟨h1, h2⟩ d (rfl | rfl | rfl | rfl) hd
    · exact absurd hd (by decide)
    · exact h1
    · exact absurd hd (by decide)
    · exact h2

/-- Every delimiter of the escaped form is preceded by a backslash (what makes
the escaped text usable inside a line). -/
theorem C09_escaped_has_no_bare_delimiter (x : Bytes) (i : Nat) (c : Byte)
    (hc : c = COMMA ∨ c = EQ ∨ c = SP) (h : (escapeTagPart x)[i]? = some c) :
    1 ≤ i ∧ (escapeTagPart x)[i - 1]? = some BS := by
  have hm : c ∈ b!",= " := by rcases hc with rfl | rfl | rfl <;> decide
  unfold escapeTagPart at *
  rw [escape_eq] at *
  have := (noDelim_iff b!",= " 0 (escL b!",= " x)).1
    (noDelim_escL b!",= " b!",= " (fun _ h => h) (by decide) 0 x) i
    (List.getElem?_eq_some_iff.1 h).1 c h hm
  cases i with
  | zero => simp at this; exact absurd this (by decide)
  | succ i => exact ⟨by omega, by simpa using this⟩

/-- **C11.** -/
theorem C11_quoted_string_roundtrip (x tail : Bytes) :
    quotedString (escapeQuotedString x ++ tail) = .ok (.ok (x, tail)) ↔
      x.getLast? ≠ some BS ∧
      ¬ (DQ ∈ x ∧ (HasPair BS COMMA x ∨ HasPair BS SP x ∨ HasPair BS EQ x)) := by
  rw [quotedString_roundtrip_iff]
  constructor
  · rintro ⟨h1, h2⟩
    refine ⟨h1, ?_⟩
    rintro ⟨hq, h3⟩
    rcases h2 with h2 | h2
    · exact h2 hq
    · rcases h3 with h3 | h3 | h3
      · exact h2 COMMA (by decide) (by decide) h3
      · exact h2 SP (by decide) (by decide) h3
      · exact h2 EQ (by decide) (by decide) h3
  · rintro ⟨h1, h2⟩
    refine ⟨h1, ?_⟩
    by_cases hq : DQ ∈ x
    · right
      rintro d (rfl | rfl | rfl | rfl) hne h
      · exact h2 ⟨hq, Or.inl h⟩
      · exact hne rfl
      · exact h2 ⟨hq, Or.inr (Or.inl h)⟩
      · exact h2 ⟨hq, Or.inr (Or.inr h)⟩
    · exact Or.inl hq

example : unescape (escapeTagPart b!"a b,c=d\\e") = .ok b!"a b,c=d\\e" := by decide
example : ¬ HasPair BS DQ b!"a b,c=d\\e" := by decide
example : HasPair BS DQ b!"x\\\"y" ∧ unescape (escapeTagPart b!"x\\\"y") = .ok b!"x\"y" := by decide
example : unescape (escapeMeasurement b!"a\\=b") = .ok b!"a=b" := by decide
example : quotedString (escapeQuotedString b!"say \"hi\", ok" ++ b!",g=1") =
    .ok (.ok (b!"say \"hi\", ok", b!",g=1")) := by decide
example : quotedString (escapeQuotedString b!"\"a\\,b" ++ b!"") = .ok (.ok (b!"\"a,b", b!"")) := by decide

/-! ## C12: tokens -/

/-- `j` is the offset of an unescaped delimiter of `s` other than the first byte. -/
def DelimAt (s til : Bytes) (j : Nat) : Prop :=
  1 ≤ j ∧ (∃ c ∈ til, s[j]? = some c) ∧ s[j - 1]? ≠ some BS

/-- **C12.** For inputs other than a single byte, the token is everything
before the first unescaped delimiter after the first byte (the whole input if
there is none). -/
theorem C12_token_cuts_at_first_delimiter (s til : Bytes) (hl : s.length ≠ 1) :
    ∃ tok rem, tokenEscaped s til = .ok (tok, rem) ∧ tok ++ rem = s ∧
      (∀ j, j < tok.length → ¬ DelimAt s til j) ∧
      (rem ≠ [] → DelimAt s til tok.length) := by
  refine ⟨_, _, tokenEscaped_eq s til, tokL_append til s, ?_, ?_⟩
  · match s, hl with
    | [], _ => intro j hj; simp [tokL] at hj
    | c :: d :: cs, _ =>
      intro j hj ⟨h1, ⟨e, he, hej⟩, h3⟩
      have hn := (noDelim_iff til c _).1 (tokSplit_noDelim til c (d :: cs))
      have happ := tokSplit_append til c (d :: cs)
      simp only [tokL, List.length_cons] at hj
      obtain ⟨i, rfl⟩ : ∃ i, j = i + 1 := ⟨j - 1, by omega⟩
      have hi : i < (tokSplit til c (d :: cs)).1.length := by omega
      simp only [List.getElem?_cons_succ] at hej
      have h4 : (tokSplit til c (d :: cs)).1[i]? = some e := by
        rw [← happ, List.getElem?_append_left hi] at hej; exact hej
      have := hn i hi e h4 he
      apply h3
      simp only [Nat.add_sub_cancel]
      have h5 : c :: d :: cs = (c :: (tokSplit til c (d :: cs)).1) ++ (tokSplit til c (d :: cs)).2 := by
        rw [List.cons_append, happ]
      rw [h5, List.getElem?_append_left (by simp; omega)]
      exact this
  · match s, hl with
    | [], _ => intro h; simp [tokL] at h
    | c :: d :: cs, _ =>
      intro hr
      have happ := tokSplit_append til c (d :: cs)
      simp only [tokL] at hr ⊢
      rcases tokSplit_rem til c (d :: cs) with h | ⟨e, r, h, he, hlast⟩
      · exact absurd h hr
      · have h5 : c :: d :: cs = (c :: (tokSplit til c (d :: cs)).1) ++ e :: r := by
          rw [← h, List.cons_append, happ]
        refine ⟨by simp, ⟨e, he, ?_⟩, ?_⟩
        · conv => lhs; rw [h5]
          rw [List.getElem?_append_right (Nat.le_refl _), Nat.sub_self]; rfl
        · have h6 : (c :: d :: cs)[(c :: (tokSplit til c (d :: cs)).1).length - 1]? =
              (c :: (tokSplit til c (d :: cs)).1).getLast? := by
            conv => lhs; rw [h5]
            rw [List.getElem?_append_left (by simp), List.getLast?_eq_getElem?]
          rw [h6, lastD_eq]
          simpa using hlast

/-- **C12, single byte.** A one-byte input is a delimiter on its own or a token
on its own. -/
theorem C12_token_single (c : Byte) (til : Bytes) :
    tokenEscaped [c] til = .ok (if c ∈ til then ([], [c]) else ([c], [])) := by
  rw [tokenEscaped_eq]; rfl

/-- **C12.** `Token` is `TokenEscaped` with the prefix unescaped. -/
theorem C12_token_unescapes (s til tok rem : Bytes) (h : tokenEscaped s til = .ok (tok, rem)) :
    ∃ u, unescape tok = .ok u ∧ tokenU s til = .ok (u, rem) := by
  rw [tokenEscaped_eq] at h
  simp only [Go.ok.injEq] at h
  refine ⟨unescL tok, unescape_eq tok, ?_⟩
  rw [tokenU_eq, h]

/-- Test: a delimiter at the very start is *not* recognised (unless it is the
whole input): this is why `m,a= f=1` parses with tag value " f=1". -/
theorem C12_leading_delimiter_ignored :
    tokenEscaped b!" f=1" b!", " = .ok (b!" f=1", []) ∧
    parseTags b!"m,a= f=1" = .ok (some ⟨b!"m", [⟨b!"a", b!" f=1"⟩], []⟩) := by decide

example : tokenEscaped b!"a\\,b,c d" b!", " = .ok (b!"a\\,b", b!",c d") ∧
    tokenU b!"a\\,b,c d" b!", " = .ok (b!"a,b", b!",c d") ∧ DelimAt b!"a\\,b,c d" b!", " 4 := by
  refine ⟨by decide, by decide, by decide, ⟨COMMA, by decide, by decide⟩, by decide⟩

/-! ## C13: parsing inverts serialisation -/

/-- **C13.** `escM` and `TagSet.Bytes` are the API's own serialisers; a header
followed by a space and anything is parsed back to the same parts. -/
theorem C13_parse_inverts_serialise (m : Bytes) (tags : List Tag) (rest : Bytes)
    (hm : MeasOK m) (hok : ∀ t ∈ tags, PartOK t.key ∧ PartOK t.value) :
    parseTags (escapeMeasurement m ++ (if tags = [] then [] else COMMA :: tagBytes tags) ++ SP :: rest)
      = .ok (some ⟨m, tags, rest⟩) :=
  parseTags_header m tags (SP :: rest) hm hok (Or.inr ⟨rest, rfl⟩)

/-- **C13, header alone.** -/
theorem C13_parse_inverts_serialise_no_fields (m : Bytes) (tags : List Tag)
    (hm : MeasOK m) (hok : ∀ t ∈ tags, PartOK t.key ∧ PartOK t.value) :
    parseTags (escapeMeasurement m ++ (if tags = [] then [] else COMMA :: tagBytes tags))
      = .ok (some ⟨m, tags, []⟩) := by
  have := parseTags_header m tags [] hm hok (Or.inl rfl)
  simpa [header] using this

example : MeasOK b!"cpu load" ∧ PartOK b!"host,a" ∧ PartOK b!"x=1\\y" := by decide
example : parseTags (escapeMeasurement b!"cpu load" ++ COMMA :: tagBytes [⟨b!"host,a", b!"x=1\\y"⟩, ⟨b!"b", b!"2"⟩]
    ++ SP :: b!"f=1 5") = .ok (some ⟨b!"cpu load", [⟨b!"host,a", b!"x=1\\y"⟩, ⟨b!"b", b!"2"⟩], b!"f=1 5"⟩) := by
  decide

/-- Tests: each part of `PartOK`/`MeasOK` is needed (value empty, value ending
in a backslash, backslash-quote in a value, backslash-equals in a measurement). -/
theorem C13_conditions_needed :
    parseTags (b!"m," ++ tagBytes [⟨b!"k", []⟩] ++ b!" f=1") ≠ .ok (some ⟨b!"m", [⟨b!"k", []⟩], b!"f=1"⟩) ∧
    parseTags (b!"m," ++ tagBytes [⟨b!"k", b!"a\\"⟩] ++ b!" f=1") ≠
      .ok (some ⟨b!"m", [⟨b!"k", b!"a\\"⟩], b!"f=1"⟩) ∧
    parseTags (b!"m," ++ tagBytes [⟨b!"k", b!"a\\\"b"⟩] ++ b!" f=1") ≠
      .ok (some ⟨b!"m", [⟨b!"k", b!"a\\\"b"⟩], b!"f=1"⟩) ∧
    parseTags (escapeMeasurement b!"a\\=b" ++ b!" f=1") ≠ .ok (some ⟨b!"a\\=b", [], b!"f=1"⟩) := by
  decide

/-! ## C14: no panics -/

/-- **C14.** None of the line parsers can panic, on any input. -/
theorem C14_parsers_never_panic (s til : Bytes) :
    Go.Safe (unescape s) ∧ Go.Safe (tokenU s til) ∧ Go.Safe (tokenEscaped s til) ∧
    Go.Safe (quotedString s) ∧ Go.Safe (parseTags s) ∧
    Go.Safe (extractTimestamp s) ∧ Go.Safe (extractNanos s) := by
  refine ⟨⟨_, unescape_eq s⟩, ⟨_, tokenU_eq s til⟩, ⟨_, tokenEscaped_eq s til⟩,
    ⟨_, quotedString_eq s⟩, parseTags_safe s, ?_, ?_⟩
  · by_cases h : ∃ v off, HasTs s v off
    · obtain ⟨v, off, h⟩ := h; exact ⟨_, extractTimestamp_some h⟩
    · exact ⟨_, extractTimestamp_none (by simpa using h)⟩
  · by_cases h : ∃ pre ts v, 6 ≤ s.length ∧
      stripNL s = pre ++ SP :: ts ∧ ts.length ≤ 19 ∧ Decimal ts v ∧ InInt64 v ∧
      SP ∉ pre.drop (pre.length + ts.length - 19)
    · obtain ⟨pre, ts, v, h6, hb, hl, hd, hv, hn⟩ := h
      exact ⟨_, extractNanos_some h6 hb hl hd hv hn⟩
    · exact ⟨_, extractNanos_none h⟩

/-! ## C19: tag rules -/

/-- **C19.** -/
theorem C19_subset_exact (t other : List Tag) :
    subsetOf t other = true ↔ ∀ x ∈ t, x ∈ other := by
  unfold subsetOf
  by_cases ht : t = []
  · simp [ht]
  · rw [if_neg (by simpa [List.length_eq_zero_iff] using ht)]
    have hpos : 0 < t.length := List.length_pos_iff.2 ht
    have := subsetOuter_spec t other [] 0
      (by rw [eq_comm, List.countP_eq_zero]; simp) hpos
    simpa using this

/-- Consequence: neither order nor repetition nor extra tags matter. -/
theorem C19_order_irrelevant (t t' other other' : List Tag) (h : ∀ x, x ∈ t ↔ x ∈ t')
    (ho : ∀ x, x ∈ other ↔ x ∈ other') : subsetOf t other = subsetOf t' other' := by
  rw [Bool.eq_iff_iff, C19_subset_exact, C19_subset_exact]
  simp only [h, ho]

example : subsetOf [⟨b!"a", b!"1"⟩, ⟨b!"a", b!"1"⟩] [⟨b!"b", b!"2"⟩, ⟨b!"a", b!"1"⟩] = true ∧
    subsetOf [⟨b!"a", b!"1"⟩, ⟨b!"c", b!"1"⟩] [⟨b!"b", b!"2"⟩, ⟨b!"a", b!"1"⟩] = false := by decide

end Spout
