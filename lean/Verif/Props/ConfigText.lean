import Verif.Lemmas.SizeText
import Verif.Props.ConfigFile

/-! # C108: sizes and durations in the configuration mean what they say -/

namespace Spout
open Spec Conf Conf.Spec

set_option exponentiation.threshold 3000

/-! ## Durations -/

theorem near_of {N : Int} {q a b : Rat} {neg : Bool} (h1 : q - a ≤ N) (h2 : (N : Rat) ≤ q + b) (hb : b ≤ a) :
    |(((if neg then -N else N : Int)) : Rat) - signed neg q| ≤ a := by
  cases neg with
  | false =>
    have e : ((if false = true then -N else N : Int)) = N := by simp
    rw [e, abs_le]; simp only [signed]
    constructor
    · simp only [Bool.false_eq_true, if_false]; linarith
    · simp only [Bool.false_eq_true, if_false]; linarith
  | true =>
    have e : ((if true = true then -N else N : Int)) = -N := by simp
    rw [e, abs_le]; simp only [signed]
    constructor
    · simp only [if_true]; push_cast; linarith
    · simp only [if_true]; push_cast; linarith

/-- **C108.** A duration that is accepted is the one that its text stands for, up to at most 1.1 nanoseconds for each part with digits after the point: exactly, if no part has any. -/
theorem C108_duration_near {s : Bytes} {neg : Bool} {ps : List DurPart} {d : Int} (h : DurationText s neg ps) (hd : parseDuration s = some d) :
    |(d : Rat) - signed neg (durValue ps)| ≤ 11 / 10 * fracCount ps := by
  obtain ⟨N, n0, n1, n2, -, n4⟩ := duration_ok h
  rw [n4] at hd
  split at hd
  · have e := Option.some.inj hd
    rw [← e]
    refine near_of n1 n2 ?_
    have : (0 : Rat) ≤ fracCount ps := by positivity
    linarith
  · cases hd

/-- **C108.** Digits after the point are exact too, if they do not divide a nanosecond: as in `1.5h` or `0.25s`. -/
theorem C108_duration_exact {s : Bytes} {neg : Bool} {ps : List DurPart} {d : Int} (h : DurationText s neg ps) (hw : ∀ p ∈ ps, 10 ^ p.decimals.length ∣ p.ns)
    (hd : parseDuration s = some d) : (d : Rat) = signed neg (durValue ps) := by
  obtain ⟨N, n0, -, -, n3, n4⟩ := duration_ok h
  rw [n4] at hd
  split at hd
  · have e := Option.some.inj hd
    rw [← e, ← n3 hw]
    cases neg <;> simp [signed]
  · cases hd

/-- **C108.** Every duration up to the largest one, 2^63 - 1 nanoseconds, is accepted. -/
theorem C108_duration_accepted {s : Bytes} {neg : Bool} {ps : List DurPart} (h : DurationText s neg ps)
    (hle : durValue ps + 1 / 10 * fracCount ps ≤ 2 ^ 63 - 1) : ∃ d, parseDuration s = some d := by
  obtain ⟨N, n0, -, n2, -, n4⟩ := duration_ok h
  refine ⟨_, n4.trans (if_pos ?_)⟩
  have h1 : (N : Rat) ≤ ((9223372036854775807 : Int) : Rat) := by push_cast; linarith
  have h2 : N ≤ 9223372036854775807 := by exact_mod_cast h1
  exact h2

/-- **C108.** A longer one is rejected; nothing wraps around. -/
theorem C108_duration_too_long {s : Bytes} {neg : Bool} {ps : List DurPart} (h : DurationText s neg ps)
    (hgt : 2 ^ 63 ≤ durValue ps - 11 / 10 * fracCount ps) : parseDuration s = none := by
  obtain ⟨N, n0, n1, -, -, n4⟩ := duration_ok h
  rw [n4, if_neg]
  intro hN
  have hN' : N ≤ 9223372036854775807 := hN
  have h1 : (N : Rat) ≤ ((9223372036854775807 : Int) : Rat) := by exact_mod_cast hN'
  push_cast at h1
  linarith

/-- **C108.** What is accepted is `0` or a duration, and has the value that the text stands for: a text without a unit, or with an unknown one, is rejected. -/
theorem C108_duration_means {s : Bytes} {d : Int} (h : parseDuration s = some d) : DurationMeans s d := by
  rcases duration_syntax h with h0 | ⟨neg, ps, h1⟩
  · exact Or.inl h0
  · exact Or.inr ⟨neg, ps, h1, C108_duration_near h1 h⟩

/-! ## Sizes -/

/-- **C108.** A size up to 2^64 - 1 is accepted, with the number of bytes that its text stands for. -/
theorem C108_size {T : SizeOps} (hT : SizeOpsOk T) {s : Bytes} {n : Nat} (h : SizeText s n) (hn : n ≤ 2 ^ 64 - 1) : parseSize T s = some n := by
  obtain ⟨ds, sp1, u, sp2, m, rfl, hd, hne, h1, h2, hu, hb, rfl⟩ := h
  obtain ⟨e, hm⟩ := sizeUnit_of (T := T) hu
  have hn' : digitsVal ds * m ≤ 18446744073709551615 := by
    have : (2 : Nat) ^ 64 - 1 = 18446744073709551615 := by norm_num
    omega
  have hv : digitsVal ds ≤ 18446744073709551615 := Nat.le_trans (Nat.le_mul_of_pos_right _ hm) hn'
  rw [size_eq hT hd hne h1 h2 (sizeUnit_facts hu), if_neg (by rintro (h | h); exact h hv; exact hb h), e]
  simp only
  rw [if_neg (fun h => (size_over _ _ hm).1 h hn')]
  exact congrArg some (Nat.mod_eq_of_lt (by omega))

/-- **C108.** A larger one is rejected; nothing wraps around. -/
theorem C108_size_too_large {T : SizeOps} (hT : SizeOpsOk T) {s : Bytes} {n : Nat} (h : SizeText s n) (hn : 2 ^ 64 ≤ n) : parseSize T s = none := by
  obtain ⟨ds, sp1, u, sp2, m, rfl, hd, hne, h1, h2, hu, hb, rfl⟩ := h
  obtain ⟨e, hm⟩ := sizeUnit_of (T := T) hu
  rw [size_eq hT hd hne h1 h2 (sizeUnit_facts hu)]
  have hn' : ¬ digitsVal ds * m ≤ 18446744073709551615 := by
    have : (2 : Nat) ^ 64 = 18446744073709551616 := by norm_num
    omega
  split
  · rfl
  · rw [e]
    simp only
    rw [if_pos ((size_over _ _ hm).2 hn')]

/-- **C108.** Sizes in bits, such as `10Mb`, are rejected. -/
theorem C108_size_bits {T : SizeOps} (hT : SizeOpsOk T) {ds sp1 u sp2 : Bytes} (hd : ∀ c ∈ ds, IsDigit c) (hne : ds ≠ []) (h1 : ∀ c ∈ sp1, IsSpace c)
    (h2 : ∀ c ∈ sp2, IsSpace c) (hu : IsBits u) : parseSize T (ds ++ sp1 ++ u ++ sp2) = none := by
  rw [size_eq hT hd hne h1 h2, if_pos (Or.inr hu)]
  have : ∀ v ∈ [b!"Kb", b!"Mb", b!"Gb", b!"Tb", b!"Pb", b!"Eb"], ∀ c ∈ v, 97 ≤ lowerByte c ∧ lowerByte c ≤ 122 := by decide
  intro c hc
  have := this u hu c hc
  exact lower_letter this.1 this.2

/-- **C108.** An ASCII text that is accepted stands for the size that it gives. -/
theorem C108_size_means {T : SizeOps} (hT : SizeOpsOk T) {s : Bytes} {n : Nat} (ha : ∀ c ∈ s, c < 128) (h : parseSize T s = some n) : SizeMeans T.longUnit s n :=
  size_syntax hT ha h

/-! ## Files -/

theorem decodeText_some {α : Type} {parse : Bytes → Option α} {t : Option Bytes} {v : Option α} (h : decodeText parse t = some v) :
    (t = none ∧ v = none) ∨ ∃ (s : Bytes) (a : α), t = some s ∧ v = some a ∧ parse s = some a := by
  cases t with
  | none => cases h; exact Or.inl ⟨rfl, rfl⟩
  | some s =>
    obtain ⟨a, ha, rfl⟩ := Option.map_eq_some_iff.1 h
    exact Or.inr ⟨s, a, rfl, rfl, ha⟩

/-- The keys of a file are those of its texts. -/
structure Decoded (T : SizeOps) (t : Texts) (l : Layer) : Prop where
  batchMaxSize : decodeText (parseSize T) t.batchMaxSize = some l.batchMaxSize
  batchMaxAge : decodeText parseDuration t.batchMaxAge = some l.batchMaxAge
  writeTimeout : decodeText parseDuration t.writeTimeout = some l.writeTimeout
  writerRetryInterval : decodeText parseDuration t.writerRetryInterval = some l.writerRetryInterval
  writerRetryTimeout : decodeText parseDuration t.writerRetryTimeout = some l.writerRetryTimeout
  readBufferSize : decodeText (parseSize T) t.readBufferSize = some l.readBufferSize
  natsMaxPendingSize : decodeText (parseSize T) t.natsMaxPendingSize = some l.natsMaxPendingSize
  maxTimeDelta : decodeText parseDuration t.maxTimeDelta = some l.maxTimeDelta
  statsInterval : decodeText parseDuration t.statsInterval = some l.statsInterval
  downsamplePeriod : decodeText parseDuration t.downsamplePeriod = some l.downsamplePeriod

theorem decoded_of {T : SizeOps} {l l' : Layer} {t : Texts} (h : decodeTexts T l t = some l') : Decoded T t l' := by
  unfold decodeTexts at h
  simp only [Option.bind_eq_bind, Option.bind_eq_some_iff, Option.pure_def] at h
  obtain ⟨a1, h1, a2, h2, a3, h3, a4, h4, a5, h5, a6, h6, a7, h7, a8, h8, a9, h9, a10, h10, e⟩ := h
  cases e
  exact ⟨h1, h2, h3, h4, h5, h6, h7, h8, h9, h10⟩

theorem fileWith_decoded {T : SizeOps} {l l' : Layer} {t : Texts} {err : Bytes} (h : fileWith T l t err = .decoded l') : Decoded T t l' := by
  unfold fileWith at h
  split at h
  · rename_i l'' hd
    have : l'' = l' := by injection h
    subst this
    exact decoded_of hd
  · cases h

/-- The text of a setting: that of the given file, else that of the common file. -/
def textOf (given common : Option Bytes) : Option Bytes := given.or common

theorem setting_text {α : Type} {parse : Bytes → Option α} {t k : Option Bytes} {vt vk : Option α} (ht : decodeText parse t = some vt) (hk : decodeText parse k = some vk)
    {s : Bytes} (hs : textOf t k = some s) (d : α) : parse s = some (setting vt vk d) := by
  rcases decodeText_some ht with ⟨rfl, rfl⟩ | ⟨s1, a, rfl, rfl, ha⟩
  · rcases decodeText_some hk with ⟨rfl, rfl⟩ | ⟨s1, a, rfl, rfl, ha⟩
    · cases hs
    · have : s1 = s := by simpa [textOf] using hs
      subst this
      exact ha
  · have : s1 = s := by simpa [textOf] using hs
    subst this
    exact ha

/-- The common file has these texts; without the file there are none. -/
def CommonTexts (fs : Bytes → FileState) (T : SizeOps) (k : Texts) : Prop :=
  (fs b!"/etc/influx-spout.toml" = .notExist ∧ k = {}) ∨ ∃ (l : Layer) (err : Bytes), fs b!"/etc/influx-spout.toml" = fileWith T l k err

/-- An ASCII text. -/
def Ascii (s : Bytes) : Prop := ∀ c ∈ s, c < 128

/-- The settings are what the texts `t` of the given file, or else those `k` of the common file, stand for. -/
structure TextSettings (T : SizeOps) (k t : Texts) (c : Config) : Prop where
  batchMaxSize : ∀ s, textOf t.batchMaxSize k.batchMaxSize = some s → Ascii s → ∃ n, SizeMeans T.longUnit s n ∧ (n ≠ 0 → c.batchMaxSize = n)
  batchMaxAge : ∀ s, textOf t.batchMaxAge k.batchMaxAge = some s → DurationMeans s c.batchMaxAge
  writeTimeout : ∀ s, textOf t.writeTimeout k.writeTimeout = some s → DurationMeans s c.writeTimeout
  writerRetryInterval : ∀ s, textOf t.writerRetryInterval k.writerRetryInterval = some s → DurationMeans s c.writerRetryInterval
  writerRetryTimeout : ∀ s, textOf t.writerRetryTimeout k.writerRetryTimeout = some s → DurationMeans s c.writerRetryTimeout
  readBufferSize : ∀ s, textOf t.readBufferSize k.readBufferSize = some s → Ascii s → SizeMeans T.longUnit s c.readBufferSize
  natsMaxPendingSize : ∀ s, textOf t.natsMaxPendingSize k.natsMaxPendingSize = some s → Ascii s → SizeMeans T.longUnit s c.natsMaxPendingSize
  maxTimeDelta : ∀ s, textOf t.maxTimeDelta k.maxTimeDelta = some s → DurationMeans s c.maxTimeDelta
  statsInterval : ∀ s, textOf t.statsInterval k.statsInterval = some s → DurationMeans s c.statsInterval
  downsamplePeriod : ∀ s, textOf t.downsamplePeriod k.downsamplePeriod = some s → ∃ d, DurationMeans s d ∧ (c.mode = b!"downsampler" → d ≠ 0 → c.downsamplePeriod = d)

/-- **C108.** Every duration and size of a loaded configuration is what the text in the given file stands for, or else that in the common file; a zero batch size or
downsampling period stands for the default (C63). -/
theorem C108_settings (fs : Bytes → FileState) (env : Bytes → Bytes) (f : Bytes) (c : Config) {T : SizeOps} (hT : SizeOpsOk T) {l : Layer} {k t : Texts} {err : Bytes}
    (hk : CommonTexts fs T k) (hf : fs f = fileWith T l t err) (h : newConfigFromFile fs env f = some c) : TextSettings T k t c := by
  obtain ⟨K, L, h1, h2, -, rfl, -⟩ := (newConfig_iff fs env f c).1 h
  have P := plain_of env f K L
  have D := dynamic_of env f K L
  generalize dynamicDefaults env f (merged K L) = c at P D
  have dt : Decoded T t L := fileWith_decoded (hf.symm.trans h2)
  have dk : Decoded T k K := by
    rcases h1 with h1 | ⟨h1, rfl⟩
    · rcases hk with ⟨hk, -⟩ | ⟨l', err', hk⟩
      · rw [hk] at h1; cases h1
      · exact fileWith_decoded (hk.symm.trans h1)
    · rcases hk with ⟨-, rfl⟩ | ⟨l', err', hk⟩
      · exact ⟨rfl, rfl, rfl, rfl, rfl, rfl, rfl, rfl, rfl, rfl⟩
      · exfalso
        rw [hk] at h1
        unfold fileWith at h1
        split at h1 <;> cases h1
  constructor
  · intro s hs ha
    have := setting_text dt.batchMaxSize dk.batchMaxSize hs 0
    refine ⟨_, C108_size_means hT ha this, fun hn => ?_⟩
    rw [D.batchMaxSize, if_neg hn]
  · intro s hs; rw [P.batchMaxAge]; exact C108_duration_means (setting_text dt.batchMaxAge dk.batchMaxAge hs _)
  · intro s hs; rw [P.writeTimeout]; exact C108_duration_means (setting_text dt.writeTimeout dk.writeTimeout hs _)
  · intro s hs; rw [P.writerRetryInterval]; exact C108_duration_means (setting_text dt.writerRetryInterval dk.writerRetryInterval hs _)
  · intro s hs; rw [P.writerRetryTimeout]; exact C108_duration_means (setting_text dt.writerRetryTimeout dk.writerRetryTimeout hs _)
  · intro s hs ha; rw [P.readBufferSize]; exact C108_size_means hT ha (setting_text dt.readBufferSize dk.readBufferSize hs _)
  · intro s hs ha; rw [P.natsMaxPendingSize]; exact C108_size_means hT ha (setting_text dt.natsMaxPendingSize dk.natsMaxPendingSize hs _)
  · intro s hs; rw [P.maxTimeDelta]; exact C108_duration_means (setting_text dt.maxTimeDelta dk.maxTimeDelta hs _)
  · intro s hs; rw [P.statsInterval]; exact C108_duration_means (setting_text dt.statsInterval dk.statsInterval hs _)
  · intro s hs
    have := setting_text dt.downsamplePeriod dk.downsamplePeriod hs 0
    refine ⟨_, C108_duration_means this, fun _ hn => ?_⟩
    rw [D.downsamplePeriod, if_neg (fun h => hn h.2)]

/-- A duration that is not too long. -/
def GoodDuration (s : Bytes) : Prop := ∃ neg ps, DurationText s neg ps ∧ durValue ps + 1 / 10 * fracCount ps ≤ 2 ^ 63 - 1

/-- A size that is not too large. -/
def GoodSize (s : Bytes) : Prop := ∃ n, SizeText s n ∧ n ≤ 2 ^ 64 - 1

theorem decodeText_good {α : Type} {parse : Bytes → Option α} {t : Option Bytes} (h : ∀ s, t = some s → ∃ a, parse s = some a) : ∃ v, decodeText parse t = some v := by
  cases t with
  | none => exact ⟨none, rfl⟩
  | some s =>
    obtain ⟨a, ha⟩ := h s rfl
    exact ⟨some a, by simp [decodeText, ha]⟩

/-- **C108.** A file in which all durations and sizes are well-formed and not too large is read. -/
theorem C108_good_file {T : SizeOps} (hT : SizeOpsOk T) (l : Layer) (t : Texts) (err : Bytes)
    (hd : ∀ o ∈ [t.batchMaxAge, t.writeTimeout, t.writerRetryInterval, t.writerRetryTimeout, t.maxTimeDelta, t.statsInterval, t.downsamplePeriod], ∀ s, o = some s → GoodDuration s)
    (hs : ∀ o ∈ [t.batchMaxSize, t.readBufferSize, t.natsMaxPendingSize], ∀ s, o = some s → GoodSize s) :
    ∃ l', fileWith T l t err = .decoded l' := by
  have gd : ∀ o ∈ [t.batchMaxAge, t.writeTimeout, t.writerRetryInterval, t.writerRetryTimeout, t.maxTimeDelta, t.statsInterval, t.downsamplePeriod],
      ∃ v, decodeText parseDuration o = some v := fun o ho => decodeText_good fun s e => by
    obtain ⟨neg, ps, h1, h2⟩ := hd o ho s e
    exact C108_duration_accepted h1 h2
  have gs : ∀ o ∈ [t.batchMaxSize, t.readBufferSize, t.natsMaxPendingSize], ∃ v, decodeText (parseSize T) o = some v := fun o ho => decodeText_good fun s e => by
    obtain ⟨n, h1, h2⟩ := hs o ho s e
    exact ⟨n, C108_size hT h1 h2⟩
  obtain ⟨v1, e1⟩ := gs t.batchMaxSize (by simp)
  obtain ⟨v2, e2⟩ := gd t.batchMaxAge (by simp)
  obtain ⟨v3, e3⟩ := gd t.writeTimeout (by simp)
  obtain ⟨v4, e4⟩ := gd t.writerRetryInterval (by simp)
  obtain ⟨v5, e5⟩ := gd t.writerRetryTimeout (by simp)
  obtain ⟨v6, e6⟩ := gs t.readBufferSize (by simp)
  obtain ⟨v7, e7⟩ := gs t.natsMaxPendingSize (by simp)
  obtain ⟨v8, e8⟩ := gd t.maxTimeDelta (by simp)
  obtain ⟨v9, e9⟩ := gd t.statsInterval (by simp)
  obtain ⟨v10, e10⟩ := gd t.downsamplePeriod (by simp)
  unfold fileWith decodeTexts
  simp only [Option.bind_eq_bind, e1, e2, e3, e4, e5, e6, e7, e8, e9, e10, Option.bind_some, Option.pure_def]
  exact ⟨_, rfl⟩

/-- **C108.** A text that does not stand for any duration makes loading fail. -/
theorem C108_bad_duration (fs : Bytes → FileState) (env : Bytes → Bytes) (f : Bytes) {T : SizeOps} {l : Layer} {t : Texts} {err : Bytes}
    (hf : fs f = fileWith T l t err) {o : Option Bytes} (ho : o ∈ [t.batchMaxAge, t.writeTimeout, t.writerRetryInterval, t.writerRetryTimeout, t.maxTimeDelta, t.statsInterval, t.downsamplePeriod])
    {s : Bytes} (hs : o = some s) (hbad : ∀ d, ¬ DurationMeans s d) : newConfigFromFile fs env f = none := by
  apply C63_missing_file
  intro l' hl
  have d := fileWith_decoded (hf.symm.trans hl)
  have key : ∀ {t : Option Bytes} {v : Option Int}, decodeText parseDuration t = some v → t ≠ some s := by
    intro t v h e
    subst e
    rcases decodeText_some h with ⟨h1, -⟩ | ⟨s', a, h1, -, h2⟩
    · cases h1
    · cases h1; exact hbad a (C108_duration_means h2)
  subst hs
  simp only [List.mem_cons, List.not_mem_nil, or_false] at ho
  rcases ho with h | h | h | h | h | h | h
  · exact key d.batchMaxAge h.symm
  · exact key d.writeTimeout h.symm
  · exact key d.writerRetryInterval h.symm
  · exact key d.writerRetryTimeout h.symm
  · exact key d.maxTimeDelta h.symm
  · exact key d.statsInterval h.symm
  · exact key d.downsamplePeriod h.symm

/-- **C108.** So does an ASCII text that does not stand for any size. -/
theorem C108_bad_size (fs : Bytes → FileState) (env : Bytes → Bytes) (f : Bytes) {T : SizeOps} (hT : SizeOpsOk T) {l : Layer} {t : Texts} {err : Bytes}
    (hf : fs f = fileWith T l t err) {o : Option Bytes} (ho : o ∈ [t.batchMaxSize, t.readBufferSize, t.natsMaxPendingSize])
    {s : Bytes} (hs : o = some s) (ha : Ascii s) (hbad : ∀ n, ¬ SizeMeans T.longUnit s n) : newConfigFromFile fs env f = none := by
  apply C63_missing_file
  intro l' hl
  have d := fileWith_decoded (hf.symm.trans hl)
  have key : ∀ {t : Option Bytes} {v : Option Nat}, decodeText (parseSize T) t = some v → t ≠ some s := by
    intro t v h e
    subst e
    rcases decodeText_some h with ⟨h1, -⟩ | ⟨s', a, h1, -, h2⟩
    · cases h1
    · cases h1; exact hbad a (C108_size_means hT ha h2)
  subst hs
  simp only [List.mem_cons, List.not_mem_nil, or_false] at ho
  rcases ho with h | h | h
  · exact key d.batchMaxSize h.symm
  · exact key d.readBufferSize h.symm
  · exact key d.natsMaxPendingSize h.symm

/-! ## Examples -/

/-- White space and letters as in ASCII; one longer name of a unit. -/
def asciiOps : SizeOps where
  trim := trimAscii
  lower := fun s => s.map lowerByte
  longUnit := fun u => if u = b!"megabyte" then some (1024 ^ 2) else none

theorem asciiOps_ok : SizeOpsOk asciiOps := ⟨fun _ _ => rfl, fun _ _ => rfl⟩

/-- `1h30m`. -/
def hourAndAHalf : List DurPart := [⟨b!"1", none, b!"h", 60 * 60 * 1000 * 1000 * 1000⟩, ⟨b!"30", none, b!"m", 60 * 1000 * 1000 * 1000⟩]

theorem hourAndAHalf_text : DurationText b!"1h30m" false hourAndAHalf := by
  refine ⟨[], Or.inl ⟨rfl, rfl⟩, by decide, ?_, by decide⟩
  intro p hp
  simp only [hourAndAHalf, List.mem_cons, List.not_mem_nil, or_false] at hp
  rcases hp with rfl | rfl <;> exact ⟨by decide, by decide, by decide⟩

theorem hourAndAHalf_value : durValue hourAndAHalf = 5400 * 10 ^ 9 ∧ fracCount hourAndAHalf = 0 := by
  constructor
  · simp only [durValue, hourAndAHalf, DurPart.value, DurPart.decimals, List.map_cons, List.map_nil, List.sum_cons, List.sum_nil, Option.getD_none]
    have e1 : digitsVal b!"1" = 1 := by decide
    have e2 : digitsVal b!"30" = 30 := by decide
    have e3 : digitsVal [] = 0 := by decide
    rw [e1, e2, e3]
    norm_num
  · decide

/-- `1h30m` is five thousand four hundred seconds. -/
example : ∃ d : Int, parseDuration b!"1h30m" = some d ∧ (d : Rat) = 5400 * 10 ^ 9 := by
  obtain ⟨d, hd⟩ := C108_duration_accepted hourAndAHalf_text (by rw [hourAndAHalf_value.1, hourAndAHalf_value.2]; norm_num)
  refine ⟨d, hd, ?_⟩
  have := C108_duration_near hourAndAHalf_text hd
  rw [hourAndAHalf_value.1, hourAndAHalf_value.2] at this
  simp only [signed, Bool.false_eq_true, if_false, Nat.cast_zero, mul_zero] at this
  have h0 := abs_nonpos_iff.1 this
  linarith

/-- The examples of README.md:104-116, and vectors from the tests of package time. -/
example : parseDuration b!"7200s" = some 7200000000000 ∧ parseDuration b!"120m" = some 7200000000000 ∧ parseDuration b!"2h" = some 7200000000000 ∧
    parseDuration b!"-1.5h" = some (-5400000000000) ∧ parseDuration b!".7s" = some 700000000 ∧ parseDuration b!"1.s" = some 1000000000 ∧
    parseDuration b!"0.3333333333333333333h" = some 1200000000000 ∧ parseDuration b!"9007199254740993ns" = some 9007199254740993 ∧
    parseDuration b!"0.9223372036854775807h" = some 3320413933267 ∧ parseDuration b!"0.100000000000000000000h" = some 360000000000 ∧
    parseDuration b!"9223372036854775807ns" = some 9223372036854775807 ∧ parseDuration b!"9223372036854775808ns" = none ∧
    parseDuration b!"3000000h" = none ∧ parseDuration b!"9223372036s1000000000ns" = none ∧ parseDuration b!"5" = none ∧ parseDuration b!"1d" = none ∧
    parseDuration b!".s" = none ∧ parseDuration b!"+.s" = none ∧ parseDuration b!"" = none ∧ parseDuration b!"-0" = some 0 ∧ parseDuration b!"1 s" = none := by decide +kernel

example : parseSize asciiOps b!"2097152" = some 2097152 ∧ parseSize asciiOps b!"2048KB" = some 2097152 ∧ parseSize asciiOps b!"2MB" = some 2097152 ∧
    parseSize asciiOps b!"2M" = some 2097152 ∧ parseSize asciiOps b!"2 mb" = some 2097152 ∧ parseSize asciiOps b!"2Mb" = none ∧ parseSize asciiOps b!"2 megabyte" = some 2097152 ∧
    parseSize asciiOps b!"18446744073709551615" = some 18446744073709551615 ∧ parseSize asciiOps b!"18446744073709551616" = none ∧ parseSize asciiOps b!"16EB" = none ∧
    parseSize asciiOps b!"15EB" = some (15 * 2 ^ 60) ∧ parseSize asciiOps b!"2XB" = none ∧ parseSize asciiOps b!"MB" = none ∧ parseSize asciiOps b!"1.5MB" = none := by decide +kernel

instance (c : Byte) : Decidable (IsSpace c) := by unfold IsSpace; infer_instance

/-- `2 mB`: two megabytes. -/
theorem two_megabytes : SizeText b!"2 mB" (2 * 1024 ^ 2) :=
  ⟨b!"2", b!" ", b!"mB", [], 1024 ^ 2, by decide, by decide, by decide, by decide, by decide, by decide, by decide, by decide⟩

/-- Sixteen exabytes are too many. -/
example : parseSize asciiOps b!"16e" = none :=
  C108_size_too_large asciiOps_ok (n := 16 * 1024 ^ 6) ⟨b!"16", [], b!"e", [], 1024 ^ 6, by decide, by decide, by decide, by decide, by decide, by decide, by decide, by decide⟩ (by norm_num)

/-- `-1.5h`. -/
def minusOneAndAHalf : List DurPart := [⟨b!"1", some b!"5", b!"h", 60 * 60 * 1000 * 1000 * 1000⟩]

theorem minusOneAndAHalf_text : DurationText b!"-1.5h" true minusOneAndAHalf := by
  refine ⟨[45], Or.inr (Or.inr ⟨rfl, rfl⟩), by decide, ?_, by decide⟩
  intro p hp
  simp only [minusOneAndAHalf, List.mem_cons, List.not_mem_nil, or_false] at hp
  subst hp
  exact ⟨by decide, by decide, by decide⟩

example : ∀ p ∈ minusOneAndAHalf, 10 ^ p.decimals.length ∣ p.ns := by decide

/-- Three million hours, which are too many. -/
def tooLong : List DurPart := [⟨b!"3000000", none, b!"h", 60 * 60 * 1000 * 1000 * 1000⟩]

example : parseDuration b!"3000000h" = none := by
  refine C108_duration_too_long (neg := false) (ps := tooLong) ⟨[], Or.inl ⟨rfl, rfl⟩, by decide, ?_, by decide⟩ ?_
  · intro p hp
    simp only [tooLong, List.mem_cons, List.not_mem_nil, or_false] at hp
    subst hp
    exact ⟨by decide, by decide, by decide⟩
  · have e1 : digitsVal b!"3000000" = 3000000 := by decide
    have e2 : digitsVal [] = 0 := by decide
    have e3 : fracCount tooLong = 0 := by decide
    rw [e3]
    simp only [durValue, tooLong, DurPart.value, DurPart.decimals, List.map_cons, List.map_nil, List.sum_cons, List.sum_nil, Option.getD_none, e1, e2]
    norm_num

/-- The texts of a file. -/
def exTexts : Texts := { batchMaxSize := some b!"2 mB", batchMaxAge := some b!"1h30m", readBufferSize := some b!"8MB" }

/-- The common file has the texts of two other settings, one of which the given file has too. -/
def exCommonTexts : Texts := { batchMaxAge := some b!"1m", statsInterval := some b!"20s" }

/-- A writer's files. -/
def exTextFiles : Bytes → FileState := fun f =>
  if f = b!"/etc/influx-spout.toml" then fileWith asciiOps {} exCommonTexts [] else fileWith asciiOps { mode := some b!"writer" } exTexts []

/-- These files are loaded, and the settings are as they say. -/
example : ∃ c, newConfigFromFile exTextFiles (fun _ => []) b!"w.toml" = some c ∧ c.batchMaxSize = 2097152 ∧ c.batchMaxAge = 5400000000000 ∧ c.readBufferSize = 8388608 ∧
    c.statsInterval = 20000000000 ∧ c.writeTimeout = 30000000000 := by
  refine ⟨{ newDefaultConfig with name := b!"w", mode := b!"writer", batchMaxSize := 2097152, batchMaxAge := 5400000000000, readBufferSize := 8388608, statsInterval := 20000000000 },
    ?_, rfl, rfl, rfl, rfl, rfl⟩
  decide +kernel

example : CommonTexts exTextFiles asciiOps exCommonTexts := Or.inr ⟨{}, [], rfl⟩

end Spout
