import Verif.Props.Config

/-! # Properties of reading configuration files (C63) -/

namespace Spout.Conf
open Spout.Conf.Spec

theorem setting_getD {α : Type} (a b : Option α) (d : α) : a.getD (b.getD d) = setting a b d := by
  cases a <;> cases b <;> rfl

theorem setting_none {α : Type} (a : Option α) (d : α) : a.getD d = setting a none d := by
  cases a <;> rfl

/-- The configuration before the dynamic defaults. -/
def merged (k l : Layer) : Config := decodeInto (decodeInto newDefaultConfig k) l

theorem decodeInto_empty : decodeInto newDefaultConfig {} = newDefaultConfig := rfl

/-- Loading succeeds exactly when the common file is missing or can be decoded,
the given file can be decoded, a mode is given and the result validates. -/
theorem newConfig_iff (fs : Bytes → FileState) (env : Bytes → Bytes) (f : Bytes) (c : Config) :
    newConfigFromFile fs env f = some c ↔
      ∃ k l, CommonKeys fs k ∧ fs f = .decoded l ∧ (merged k l).mode ≠ [] ∧
        c = dynamicDefaults env f (merged k l) ∧ validate c = .ok () := by
  have step : ∀ k : Layer, (match readConfig fs f (decodeInto newDefaultConfig k) with
      | .error _ => (none : Option Config)
      | .ok c =>
        if c.mode = [] then none
        else
          let c := dynamicDefaults env f c
          match validate c with
          | .error _ => none
          | .ok () => some c) = some c ↔ ∃ l, fs f = .decoded l ∧ (merged k l).mode ≠ [] ∧
            c = dynamicDefaults env f (merged k l) ∧ validate c = .ok () := by
    intro k
    unfold readConfig
    cases hf : fs f with
    | notExist => simp
    | unreadable e => simp
    | invalid e => simp
    | decoded l =>
      simp only [FileState.decoded.injEq, exists_eq_left']
      rw [show decodeInto (decodeInto newDefaultConfig k) l = merged k l from rfl]
      by_cases hm : (merged k l).mode = []
      · rw [if_pos hm]
        constructor
        · intro h; cases h
        · intro h; exact absurd hm h.1
      · rw [if_neg hm]
        cases hv : validate (dynamicDefaults env f (merged k l)) with
        | error e =>
          simp only [reduceCtorEq, false_iff]
          rintro ⟨-, rfl, h⟩
          rw [hv] at h; cases h
        | ok u =>
          simp only [Option.some.injEq]
          constructor
          · rintro rfl
            exact ⟨hm, rfl, hv⟩
          · rintro ⟨-, rfl, -⟩
            rfl
  unfold newConfigFromFile
  have hcf : commonFileName = b!"/etc/influx-spout.toml" := rfl
  cases hc : fs commonFileName with
  | notExist =>
    have e : readConfig fs commonFileName newDefaultConfig = .error .missing := by unfold readConfig; rw [hc]
    rw [e]
    refine Iff.trans (step {}) ?_
    rw [hcf] at hc
    constructor
    · rintro ⟨l, h⟩; exact ⟨{}, l, Or.inr ⟨hc, rfl⟩, h⟩
    · rintro ⟨k, l, h | ⟨-, rfl⟩, h'⟩
      · rw [hc] at h; cases h
      · exact ⟨l, h'⟩
  | unreadable m =>
    have e : readConfig fs commonFileName newDefaultConfig = .error (.other m) := by unfold readConfig; rw [hc]
    rw [e]
    rw [hcf] at hc
    simp only [reduceCtorEq, false_iff]
    rintro ⟨k, l, h | ⟨h, -⟩, -⟩ <;> rw [hc] at h <;> cases h
  | invalid m =>
    have e : readConfig fs commonFileName newDefaultConfig = .error (.other (commonFileName ++ b!": " ++ m)) := by
      unfold readConfig; rw [hc]
    rw [e]
    rw [hcf] at hc
    simp only [reduceCtorEq, false_iff]
    rintro ⟨k, l, h | ⟨h, -⟩, -⟩ <;> rw [hc] at h <;> cases h
  | decoded k =>
    have e : readConfig fs commonFileName newDefaultConfig = .ok (decodeInto newDefaultConfig k) := by
      unfold readConfig; rw [hc]
    rw [e]
    refine Iff.trans (step k) ?_
    rw [hcf] at hc
    constructor
    · rintro ⟨l, h⟩; exact ⟨k, l, Or.inl hc, h⟩
    · rintro ⟨k', l, h | ⟨h, -⟩, h'⟩
      · rw [hc] at h; injection h with h; subst h; exact ⟨l, h'⟩
      · rw [hc] at h; cases h

/-! The effect of the dynamic defaults on each setting. -/

theorem setName_eq (f : Bytes) (c : Config) :
    setName f c = { c with name := if c.name = [] then pathToConfigName f else c.name } := by
  unfold setName; split <;> rfl

theorem setBatchMaxSize_eq (c : Config) : setBatchMaxSize c = { c with batchMaxSize :=
    if c.batchMaxSize = 0 then (if c.mode = b!"listener" ∨ c.mode = b!"listener_http" then 1048576 else 10485760)
    else c.batchMaxSize } := by
  unfold setBatchMaxSize; split
  · split <;> rfl
  · rfl

theorem setPort_eq (c : Config) : setPort c = { c with port :=
    if c.port = 0 then
      (if c.mode = b!"listener" then 10001 else if c.mode = b!"listener_http" then 13337
       else if c.mode = b!"monitor" then 9331 else 0)
    else c.port } := by
  unfold setPort; split
  · rename_i h
    split
    · rfl
    · split
      · rfl
      · split
        · rfl
        · rw [← h]
  · rfl

theorem setPeriod_eq (c : Config) : setPeriod c = { c with downsamplePeriod :=
    if c.mode = b!"downsampler" ∧ c.downsamplePeriod = 0 then 60000000000 else c.downsamplePeriod } := by
  unfold setPeriod; split <;> rfl

theorem setCredentials_eq (env : Bytes → Bytes) (c : Config) : setCredentials env c = { c with
    influxDBUser := if c.mode = b!"writer" then env b!"INFLUXDB_USER" else c.influxDBUser
    influxDBPass := if c.mode = b!"writer" then env b!"INFLUXDB_PASS" else c.influxDBPass } := by
  unfold setCredentials; split <;> rfl

theorem dynamicDefaults_eq (env : Bytes → Bytes) (f : Bytes) (c : Config) : dynamicDefaults env f c = { c with
    name := if c.name = [] then pathToConfigName f else c.name
    batchMaxSize := if c.batchMaxSize = 0 then (if c.mode = b!"listener" ∨ c.mode = b!"listener_http" then 1048576 else 10485760)
      else c.batchMaxSize
    port := if c.port = 0 then
        (if c.mode = b!"listener" then 10001 else if c.mode = b!"listener_http" then 13337
         else if c.mode = b!"monitor" then 9331 else 0)
      else c.port
    downsamplePeriod := if c.mode = b!"downsampler" ∧ c.downsamplePeriod = 0 then 60000000000 else c.downsamplePeriod
    influxDBUser := if c.mode = b!"writer" then env b!"INFLUXDB_USER" else c.influxDBUser
    influxDBPass := if c.mode = b!"writer" then env b!"INFLUXDB_PASS" else c.influxDBPass } := by
  unfold dynamicDefaults
  rw [setName_eq, setBatchMaxSize_eq, setPort_eq, setPeriod_eq, setCredentials_eq]

/-! ## C63 -/

/-- The settings without mode dependent defaults, each taken from the given
file `l`, else from the common file `k`, else the documented default. -/
structure PlainSettings (k l : Layer) (c : Config) : Prop where
  mode : c.mode = setting l.mode k.mode []
  natsAddress : c.natsAddress = setting l.natsAddress k.natsAddress b!"nats://localhost:4222"
  natsSubject : c.natsSubject = setting l.natsSubject k.natsSubject [b!"influx-spout"]
  natsSubjectMonitor : c.natsSubjectMonitor = setting l.natsSubjectMonitor k.natsSubjectMonitor b!"influx-spout-monitor"
  natsSubjectJunkyard : c.natsSubjectJunkyard = setting l.natsSubjectJunkyard k.natsSubjectJunkyard b!"influx-spout-junk"
  influxDBAddress : c.influxDBAddress = setting l.influxDBAddress k.influxDBAddress b!"localhost"
  influxDBProtocol : c.influxDBProtocol = setting l.influxDBProtocol k.influxDBProtocol b!"http"
  influxDBPort : c.influxDBPort = setting l.influxDBPort k.influxDBPort 8086
  dbName : c.dbName = setting l.dbName k.dbName b!"influx-spout-junk"
  batchMaxCount : c.batchMaxCount = setting l.batchMaxCount k.batchMaxCount 10
  /-- 5 minutes -/
  batchMaxAge : c.batchMaxAge = setting l.batchMaxAge k.batchMaxAge 300000000000
  workers : c.workers = setting l.workers k.workers 8
  /-- 30 seconds -/
  writeTimeout : c.writeTimeout = setting l.writeTimeout k.writeTimeout 30000000000
  writerRetryBatches : c.writerRetryBatches = setting l.writerRetryBatches k.writerRetryBatches 1
  /-- 10 seconds -/
  writerRetryInterval : c.writerRetryInterval = setting l.writerRetryInterval k.writerRetryInterval 10000000000
  /-- 1 minute -/
  writerRetryTimeout : c.writerRetryTimeout = setting l.writerRetryTimeout k.writerRetryTimeout 60000000000
  /-- 4 MB -/
  readBufferSize : c.readBufferSize = setting l.readBufferSize k.readBufferSize 4194304
  /-- 200 MB -/
  natsMaxPendingSize : c.natsMaxPendingSize = setting l.natsMaxPendingSize k.natsMaxPendingSize 209715200
  /-- 10 minutes -/
  maxTimeDelta : c.maxTimeDelta = setting l.maxTimeDelta k.maxTimeDelta 600000000000
  /-- 3 seconds -/
  statsInterval : c.statsInterval = setting l.statsInterval k.statsInterval 3000000000
  probePort : c.probePort = setting l.probePort k.probePort 0
  pprofPort : c.pprofPort = setting l.pprofPort k.pprofPort 0
  debug : c.debug = setting l.debug k.debug false
  downsampleSuffix : c.downsampleSuffix = setting l.downsampleSuffix k.downsampleSuffix b!"-archive"
  queueGroup : c.queueGroup = setting l.queueGroup k.queueGroup []

theorem plain_of (env : Bytes → Bytes) (f : Bytes) (k l : Layer) :
    PlainSettings k l (dynamicDefaults env f (merged k l)) := by
  rw [dynamicDefaults_eq]
  constructor <;> exact setting_getD _ _ _

/-- **C63.** Every plain setting of a loaded configuration is that of the given
file, else that of the common file, else the documented default. -/
theorem C63_plain_settings (fs : Bytes → FileState) (env : Bytes → Bytes) (f : Bytes) (c : Config)
    (h : newConfigFromFile fs env f = some c) :
    ∃ k l, CommonKeys fs k ∧ fs f = .decoded l ∧ PlainSettings k l c := by
  obtain ⟨k, l, h1, h2, -, rfl, -⟩ := (newConfig_iff fs env f c).1 h
  exact ⟨k, l, h1, h2, plain_of env f k l⟩

/-- The settings with mode dependent defaults, taken from the given file `f`
with keys `l`, the common file with keys `k`, and the environment. -/
structure DynamicSettings (env : Bytes → Bytes) (f : Bytes) (k l : Layer) (c : Config) : Prop where
  name : c.name = if setting l.name k.name [] = [] then pathToConfigName f else setting l.name k.name []
  batchMaxSize : c.batchMaxSize = if setting l.batchMaxSize k.batchMaxSize 0 = 0 then
      (if c.mode = b!"listener" ∨ c.mode = b!"listener_http" then 1024 * 1024 else 10 * 1024 * 1024)
    else setting l.batchMaxSize k.batchMaxSize 0
  port : c.port = if setting l.port k.port 0 = 0 then
      (if c.mode = b!"listener" then 10001 else if c.mode = b!"listener_http" then 13337
       else if c.mode = b!"monitor" then 9331 else 0)
    else setting l.port k.port 0
  downsamplePeriod : c.downsamplePeriod = if c.mode = b!"downsampler" ∧ setting l.downsamplePeriod k.downsamplePeriod 0 = 0
    then 60 * 1000000000 else setting l.downsamplePeriod k.downsamplePeriod 0
  influxDBUser : c.influxDBUser = if c.mode = b!"writer" then env b!"INFLUXDB_USER" else []
  influxDBPass : c.influxDBPass = if c.mode = b!"writer" then env b!"INFLUXDB_PASS" else []

theorem dynamic_of (env : Bytes → Bytes) (f : Bytes) (k l : Layer) :
    DynamicSettings env f k l (dynamicDefaults env f (merged k l)) := by
  rw [dynamicDefaults_eq]
  have e1 : (merged k l).name = setting l.name k.name [] := setting_getD _ _ _
  have e2 : (merged k l).batchMaxSize = setting l.batchMaxSize k.batchMaxSize 0 := setting_getD _ _ _
  have e3 : (merged k l).port = setting l.port k.port 0 := setting_getD _ _ _
  have e4 : (merged k l).downsamplePeriod = setting l.downsamplePeriod k.downsamplePeriod 0 := setting_getD _ _ _
  constructor <;> (try rw [← e1]) <;> (try rw [← e2]) <;> (try rw [← e3]) <;> (try rw [← e4]) <;> rfl

/-- **C63.** The settings with mode dependent defaults: these apply exactly to
values that are unset (or zero, or empty). -/
theorem C63_dynamic_settings (fs : Bytes → FileState) (env : Bytes → Bytes) (f : Bytes) (c : Config)
    (h : newConfigFromFile fs env f = some c) :
    ∃ k l, CommonKeys fs k ∧ fs f = .decoded l ∧ DynamicSettings env f k l c := by
  obtain ⟨k, l, h1, h2, -, rfl, -⟩ := (newConfig_iff fs env f c).1 h
  exact ⟨k, l, h1, h2, dynamic_of env f k l⟩

/-- **C63.** A loaded configuration is always acceptable. -/
theorem C63_loaded_acceptable (fs : Bytes → FileState) (env : Bytes → Bytes) (f : Bytes) (c : Config)
    (h : newConfigFromFile fs env f = some c) : Acceptable c :=
  (C61_validate_exactly c).1 ((newConfig_iff fs env f c).1 h).choose_spec.choose_spec.2.2.2.2

/-- **C63.** Loading fails if the common file exists but cannot be read or decoded. -/
theorem C63_bad_common_file (fs : Bytes → FileState) (env : Bytes → Bytes) (f e : Bytes)
    (h : fs b!"/etc/influx-spout.toml" = .unreadable e ∨ fs b!"/etc/influx-spout.toml" = .invalid e) :
    newConfigFromFile fs env f = none := by
  cases hn : newConfigFromFile fs env f with
  | none => rfl
  | some c =>
    obtain ⟨k, l, h1, -⟩ := (newConfig_iff fs env f c).1 hn
    rcases h with h | h <;> rcases h1 with h1 | ⟨h1, -⟩ <;> rw [h1] at h <;> cases h

/-- **C63.** Loading fails without the given file. -/
theorem C63_missing_file (fs : Bytes → FileState) (env : Bytes → Bytes) (f : Bytes)
    (h : ∀ l, fs f ≠ .decoded l) : newConfigFromFile fs env f = none := by
  cases hn : newConfigFromFile fs env f with
  | none => rfl
  | some c =>
    obtain ⟨k, l, -, h2, -⟩ := (newConfig_iff fs env f c).1 hn
    exact absurd h2 (h l)

/-! ### Rules -/

/-- A rule as given by one table. -/
def ruleOf (l : RuleLayer) : RuleConf :=
  ⟨l.rtype.getD [], l.match_.getD [], l.tags.getD [], l.subject.getD []⟩

/-- A rule whose missing keys come from another table. -/
def ruleOver (l k : RuleLayer) : RuleConf :=
  ⟨setting l.rtype k.rtype [], setting l.match_ k.match_ [], setting l.tags k.tags [], setting l.subject k.subject []⟩

/-- The rules, from the rule tables of the given file and of the common file. -/
def rulesFrom (l k : Option (List RuleLayer)) : List RuleConf :=
  match l, k with
  | none, none => []
  | none, some ks => ks.map ruleOf
  | some ls, none => ls.map ruleOf
  | some ls, some ks => if ks.length < ls.length then ls.map ruleOf else ls.zipWith ruleOver ks

theorem rules_of (env : Bytes → Bytes) (f : Bytes) (k l : Layer) :
    (dynamicDefaults env f (merged k l)).rule = rulesFrom l.rule k.rule := by
  rw [dynamicDefaults_eq]
  have e0 : ∀ ls : List RuleLayer, decodeRules [] ls = ls.map ruleOf := by
    intro ls
    unfold decodeRules
    cases ls with
    | nil => rfl
    | cons a ls => rw [if_pos (by simp)]; rfl
  show (merged k l).rule = _
  unfold merged decodeInto
  unfold rulesFrom
  simp only
  cases hl : l.rule with
  | none =>
    cases hk : k.rule with
    | none => rfl
    | some ks => exact e0 ks
  | some ls =>
    cases hk : k.rule with
    | none => exact e0 ls
    | some ks =>
      show decodeRules (decodeRules [] ks) ls = _
      rw [e0 ks]
      unfold decodeRules
      rw [List.length_map]
      simp only
      by_cases hlen : ks.length < ls.length
      · rw [if_pos hlen, if_pos hlen]; rfl
      · rw [if_neg hlen, if_neg hlen]
        clear hl hk hlen
        induction ls generalizing ks with
        | nil => cases ks <;> rfl
        | cons a ls ih =>
          cases ks with
          | nil => rfl
          | cons b ks =>
            simp only [List.map_cons, List.zipWith_cons_cons]
            rw [ih ks]
            rfl

/-- **C63 (rules, partial).** If only one of the files has rules, these are the
rules; if both have rules and the given file has more, its rules are used.
Missing: if both have rules and the given file has no more than the common
file, each rule of the given file is completed with the keys of the rule at the
same place of the common file (`C63_rules_can_mix`). -/
theorem C63_rules_partial (fs : Bytes → FileState) (env : Bytes → Bytes) (f : Bytes) (c : Config)
    (h : newConfigFromFile fs env f = some c) :
    ∃ k l, CommonKeys fs k ∧ fs f = .decoded l ∧ c.rule = rulesFrom l.rule k.rule := by
  obtain ⟨k, l, h1, h2, -, rfl, -⟩ := (newConfig_iff fs env f c).1 h
  exact ⟨k, l, h1, h2, rules_of env f k l⟩

/-- The settings determine the configuration. -/
theorem settings_determine {env : Bytes → Bytes} {f : Bytes} {k l : Layer} {c c' : Config}
    (hp : PlainSettings k l c) (hp' : PlainSettings k l c') (hd : DynamicSettings env f k l c)
    (hd' : DynamicSettings env f k l c') (hr : c.rule = c'.rule) : c = c' := by
  have hm : c.mode = c'.mode := hp.mode.trans hp'.mode.symm
  have d1 := hd.name.trans hd'.name.symm
  have d2 := hd.batchMaxSize
  have d3 := hd.port
  have d4 := hd.downsamplePeriod
  have d5 := hd.influxDBUser
  have d6 := hd.influxDBPass
  rw [hm, ← hd'.batchMaxSize] at d2
  rw [hm, ← hd'.port] at d3
  rw [hm, ← hd'.downsamplePeriod] at d4
  rw [hm, ← hd'.influxDBUser] at d5
  rw [hm, ← hd'.influxDBPass] at d6
  cases c; cases c'
  simp only at hm d1 d2 d3 d4 d5 d6 hr
  simp only [Config.mk.injEq]
  exact ⟨d1, hm, hp.natsAddress.trans hp'.natsAddress.symm, hp.natsSubject.trans hp'.natsSubject.symm,
    hp.natsSubjectMonitor.trans hp'.natsSubjectMonitor.symm,
    hp.natsSubjectJunkyard.trans hp'.natsSubjectJunkyard.symm,
    hp.influxDBAddress.trans hp'.influxDBAddress.symm, hp.influxDBProtocol.trans hp'.influxDBProtocol.symm,
    hp.influxDBPort.trans hp'.influxDBPort.symm, d5, d6, hp.dbName.trans hp'.dbName.symm,
    hp.batchMaxCount.trans hp'.batchMaxCount.symm, d2, hp.batchMaxAge.trans hp'.batchMaxAge.symm, d3,
    hp.workers.trans hp'.workers.symm, hp.writeTimeout.trans hp'.writeTimeout.symm,
    hp.writerRetryBatches.trans hp'.writerRetryBatches.symm,
    hp.writerRetryInterval.trans hp'.writerRetryInterval.symm,
    hp.writerRetryTimeout.trans hp'.writerRetryTimeout.symm, hp.readBufferSize.trans hp'.readBufferSize.symm,
    hp.natsMaxPendingSize.trans hp'.natsMaxPendingSize.symm, hr, hp.maxTimeDelta.trans hp'.maxTimeDelta.symm,
    hp.statsInterval.trans hp'.statsInterval.symm, hp.probePort.trans hp'.probePort.symm,
    hp.pprofPort.trans hp'.pprofPort.symm, hp.debug.trans hp'.debug.symm, d4,
    hp.downsampleSuffix.trans hp'.downsampleSuffix.symm, hp.queueGroup.trans hp'.queueGroup.symm⟩

/-- **C63.** Loading gives `c` exactly when the common file is missing (and then
has no keys) or well-formed, the given file is well-formed, a mode is given,
every setting of `c` is the one these files, the environment and the defaults
give, and `c` is acceptable.  (The equation for the rules is the actual one,
with the mixing of `C63_rules_can_mix`.) -/
theorem C63_loaded_exactly (fs : Bytes → FileState) (env : Bytes → Bytes) (f : Bytes) (c : Config) :
    newConfigFromFile fs env f = some c ↔
      ∃ k l, CommonKeys fs k ∧ fs f = .decoded l ∧ setting l.mode k.mode [] ≠ [] ∧
        PlainSettings k l c ∧ DynamicSettings env f k l c ∧ c.rule = rulesFrom l.rule k.rule ∧ Acceptable c := by
  constructor
  · intro h
    obtain ⟨k, l, h1, h2, hm, rfl, hv⟩ := (newConfig_iff fs env f c).1 h
    exact ⟨k, l, h1, h2, fun e => hm ((setting_getD l.mode k.mode []).trans e), plain_of env f k l,
      dynamic_of env f k l, rules_of env f k l, (C61_validate_exactly _).1 hv⟩
  · rintro ⟨k, l, hk, hl, hm, hp, hd, hr, ha⟩
    exact (newConfig_iff fs env f c).2 ⟨k, l, hk, hl, fun e => hm ((setting_getD l.mode k.mode []).symm.trans e),
      settings_determine hp (plain_of env f k l) hd (dynamic_of env f k l) (hr.trans (rules_of env f k l).symm),
      (C61_validate_exactly c).2 ha⟩

/-- **C63 is false for rules**: with rules in both files, a rule of the given
file can be completed from an unrelated rule of the common file, here making a
basic rule that is then rejected because it has tags. -/
theorem C63_rules_can_mix : ∃ (fs : Bytes → FileState) (f : Bytes) (l : Layer), fs f = .decoded l ∧
    l.mode = some b!"filter" ∧ l.rule = some [⟨some b!"basic", some b!"cpu", none, some b!"s"⟩] ∧
    (∀ env, newConfigFromFile fs env f = none) ∧
    (∀ env, ∃ c, newConfigFromFile (fun p => if p = f then fs f else .notExist) env f = some c) := by
  let l : Layer := { mode := some b!"filter", rule := some [⟨some b!"basic", some b!"cpu", none, some b!"s"⟩] }
  let k : Layer := { rule := some [⟨some b!"tags", none, some [[b!"a", b!"b"]], some b!"t"⟩] }
  refine ⟨fun p => if p = b!"f.toml" then .decoded l else .decoded k, b!"f.toml", l, rfl, rfl, rfl, ?_, ?_⟩
  · intro env; rfl
  · intro env; exact ⟨_, rfl⟩

/-! ### The default name -/

theorem takeWhile_append_stop (a b : Bytes) (x y : Byte) (hx : x = y) (ha : x ∉ a) :
    (a ++ y :: b).takeWhile (· != x) = a := by
  subst hx
  induction a with
  | nil => simp
  | cons z a ih =>
    have hz : z ≠ x := fun e => ha (by rw [e]; simp)
    rw [List.cons_append, List.takeWhile_cons, if_pos (by simp [hz]), ih (fun m => ha (List.mem_cons_of_mem _ m))]

theorem takeWhile_all (a : Bytes) (x : Byte) (ha : x ∉ a) : a.takeWhile (· != x) = a := by
  induction a with
  | nil => rfl
  | cons z a ih =>
    have hz : z ≠ x := fun e => ha (by rw [e]; simp)
    rw [List.takeWhile_cons, if_pos (by simp [hz]), ih (fun m => ha (List.mem_cons_of_mem _ m))]

theorem base_plain (name : Bytes) (hn : name ≠ []) (hs : SLASH ∉ name) (dir : Bytes) (hd : dir = [] ∨ dir.getLast? = some SLASH) :
    base (dir ++ name) = name := by
  have hrev : SLASH ∉ name.reverse := by simpa using hs
  unfold base
  rw [if_neg (by simp [hn])]
  simp only
  have h1 : (dir ++ name).reverse.dropWhile (· == SLASH) = (dir ++ name).reverse := by
    rw [List.reverse_append]
    cases hr : name.reverse with
    | nil => exact absurd (by simpa using hr) hn
    | cons a as =>
      have : a ≠ SLASH := fun e => hrev (by rw [hr, e]; simp)
      rw [List.cons_append, List.dropWhile_cons, if_neg (by simp [this])]
  rw [h1, List.reverse_reverse, List.reverse_append]
  have h2 : (name.reverse ++ dir.reverse).takeWhile (· != SLASH) = name.reverse := by
    rcases hd with rfl | hd
    · rw [List.reverse_nil, List.append_nil]
      exact takeWhile_all _ _ hrev
    · obtain ⟨d, rfl⟩ : ∃ d, dir = d ++ [SLASH] := by
        rcases List.eq_nil_or_concat dir with rfl | ⟨d, x, rfl⟩
        · cases hd
        · rw [List.concat_eq_append] at hd ⊢
          simp only [List.getLast?_append, List.getLast?_singleton, Option.some_or, Option.some.injEq] at hd
          exact ⟨d, by rw [hd]⟩
      rw [List.reverse_append, List.reverse_singleton, List.singleton_append]
      exact takeWhile_append_stop _ _ _ _ rfl hrev
  rw [h2, List.reverse_reverse, if_neg hn]

/-- **C63 (name).** Without a name, a component is named after its file: the
directory and the extension are dropped (47 is the slash, 46 the dot). -/
theorem C63_default_name (dir stem extension : Bytes) (hd : dir = [] ∨ dir.getLast? = some (47 : Byte))
    (hs : (47 : Byte) ∉ stem) (he : (47 : Byte) ∉ extension) (hdot : (46 : Byte) ∉ extension) :
    pathToConfigName (dir ++ stem ++ b!"." ++ extension) = stem := by
  have hslash : SLASH ∉ stem ++ DOT :: extension := by
    intro h
    rcases List.mem_append.1 h with h | h
    · exact hs h
    · rcases List.mem_cons.1 h with h | h
      · exact absurd h (by decide)
      · exact he h
  have hb : base (dir ++ stem ++ b!"." ++ extension) = stem ++ DOT :: extension := by
    rw [show dir ++ stem ++ b!"." ++ extension = dir ++ (stem ++ DOT :: extension) by simp]
    exact base_plain _ (by simp) hslash dir hd
  unfold pathToConfigName
  rw [hb]
  have hx : ext (stem ++ DOT :: extension) = DOT :: extension := by
    unfold ext
    simp only
    rw [takeWhile_all _ _ (fun h => hslash (List.mem_reverse.1 h)), List.reverse_reverse, if_pos (by simp)]
    congr 1
    rw [List.reverse_append, List.reverse_cons, List.append_assoc, List.singleton_append,
      takeWhile_append_stop _ _ _ _ rfl (by simpa using hdot), List.reverse_reverse]
  simp only
  rw [hx, if_neg (by simp)]
  simp

/-- **C63 (name).** A file name without extension is used as it is. -/
theorem C63_default_name_no_extension (dir stem : Bytes) (hd : dir = [] ∨ dir.getLast? = some (47 : Byte))
    (hs : (47 : Byte) ∉ stem) (hn : stem ≠ []) (hdot : (46 : Byte) ∉ stem) : pathToConfigName (dir ++ stem) = stem := by
  unfold pathToConfigName
  rw [base_plain stem hn hs dir hd]
  have hx : ext stem = [] := by
    unfold ext
    simp only
    rw [takeWhile_all _ _ (by simpa using hs), List.reverse_reverse, if_neg hdot]
  simp only
  rw [hx, if_pos rfl]

example : pathToConfigName b!"/etc/spout/my.filter.toml" = b!"my.filter" := by decide
example : pathToConfigName b!"listener" = b!"listener" := by decide

/-- Test: two files. -/
example :
    (newConfigFromFile (fun p =>
        if p = b!"/etc/influx-spout.toml" then .decoded { natsAddress := some b!"nats://x", workers := some 3 }
        else if p = b!"dir/w.toml" then .decoded { mode := some b!"writer", workers := some 5 }
        else .notExist) (fun _ => []) b!"dir/w.toml").map
      (fun c => (c.name, c.natsAddress, c.workers, c.batchMaxSize))
    = some (b!"w", b!"nats://x", 5, 10485760) := by decide +kernel

end Spout.Conf
