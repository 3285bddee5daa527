import Verif.Model.Filter

/-! # Model of the configuration: config/config.go, config/duration.go and
`RuleSetFromConfig` of filter/rules.go

Not modelled: the TOML syntax, which is decoded by `github.com/BurntSushi/toml`
v0.3.1.  A file is represented by the keys that it sets with their decoded
values.  Durations are in nanoseconds; the texts of durations and sizes are in
`Model/ConfigText`. -/

namespace Spout.Conf

/-- `Rule`, config/config.go:74-79. -/
structure RuleConf where
  rtype : Bytes := []
  match_ : Bytes := []
  tags : List (List Bytes) := []
  subject : Bytes := []
  deriving DecidableEq, Repr

/-- `Config`, config/config.go:38-71. -/
structure Config where
  name : Bytes := []
  mode : Bytes := []
  natsAddress : Bytes := []
  natsSubject : List Bytes := []
  natsSubjectMonitor : Bytes := []
  natsSubjectJunkyard : Bytes := []
  influxDBAddress : Bytes := []
  influxDBProtocol : Bytes := []
  influxDBPort : Int := 0
  influxDBUser : Bytes := []
  influxDBPass : Bytes := []
  dbName : Bytes := []
  batchMaxCount : Int := 0
  batchMaxSize : Nat := 0
  batchMaxAge : Int := 0
  port : Int := 0
  workers : Int := 0
  writeTimeout : Int := 0
  writerRetryBatches : Int := 0
  writerRetryInterval : Int := 0
  writerRetryTimeout : Int := 0
  readBufferSize : Nat := 0
  natsMaxPendingSize : Nat := 0
  rule : List RuleConf := []
  maxTimeDelta : Int := 0
  statsInterval : Int := 0
  probePort : Int := 0
  pprofPort : Int := 0
  debug : Bool := false
  downsamplePeriod : Int := 0
  downsampleSuffix : Bytes := []
  queueGroup : Bytes := []
  deriving DecidableEq, Repr

/-- `datasize.MB`. config/config.go:34, 98-99, 251-253. -/
def MB : Nat := 1048576
/-- `time.Second` in nanoseconds. config/config.go:94-102. -/
def second : Int := 1000000000
/-- `time.Minute` in nanoseconds. config/config.go:92, 97, 100, 269. -/
def minute : Int := 60 * second

/-- `MaxNATSMsgSize`, config/config.go:34. -/
def maxNATSMsgSize : Nat := MB

/-- `newDefaultConfig`, config/config.go:81-107. -/
def newDefaultConfig : Config where
  natsAddress := b!"nats://localhost:4222"
  natsSubject := [b!"influx-spout"]
  natsSubjectMonitor := b!"influx-spout-monitor"
  natsSubjectJunkyard := b!"influx-spout-junk"
  influxDBAddress := b!"localhost"
  influxDBProtocol := b!"http"
  influxDBPort := 8086
  dbName := b!"influx-spout-junk"
  batchMaxCount := 10
  batchMaxAge := 5 * minute
  workers := 8
  writeTimeout := 30 * second
  writerRetryBatches := 1
  writerRetryInterval := 10 * second
  writerRetryTimeout := minute
  readBufferSize := 4 * MB
  natsMaxPendingSize := 200 * MB
  maxTimeDelta := 10 * minute
  downsampleSuffix := b!"-archive"
  statsInterval := 3 * second
  probePort := 0
  pprofPort := 0
  queueGroup := []

/-! ## Validate -/

/-- `validateListener`, config/config.go:140-151. -/
def validateListener (c : Config) : Except Bytes Unit :=
  if c.port < 1 || c.port > 65535 then .error b!"listener port out of range"
  else if c.natsSubject.length ≠ 1 then .error b!"listener should only use one NATS subject"
  else if c.batchMaxSize > maxNATSMsgSize then .error b!"listener batch must be 1MB or smaller"
  else .ok ()

/-- The loop over the tags, config/config.go:177-181. -/
def validateTags : List (List Bytes) → Except Bytes Unit
  | [] => .ok ()
  | tag :: rest =>
    if tag.length ≠ 2 then .error b!"each tags item must contain 2 values" else validateTags rest

/-- The body of the loop over the rules, config/config.go:158-182. -/
def validateFilterRule (rule : RuleConf) : Except Bytes Unit :=
  if rule.rtype = [] then .error b!"rule missing \"type\""
  else if rule.subject = [] then .error b!"rule missing \"subject\""
  else if rule.rtype ≠ b!"tags" ∧ rule.match_ = [] then .error b!"rule missing \"match\""
  else if rule.rtype ≠ b!"tags" ∧ rule.tags.length > 0 then .error (rule.rtype ++ b!" rule cannot use \"tags\"")
  else if rule.rtype = b!"tags" then
    if rule.match_ ≠ [] then .error b!"tags rule cannot use \"match\""
    else if rule.tags.length = 0 then .error b!"tags rule missing \"tags\""
    else validateTags rule.tags
  else .ok ()

/-- The loop over the rules, config/config.go:157-183. -/
def validateFilterRules : List RuleConf → Except Bytes Unit
  | [] => .ok ()
  | r :: rs => match validateFilterRule r with
    | .error e => .error e
    | .ok () => validateFilterRules rs

/-- `validateFilter`, config/config.go:153-185. -/
def validateFilter (c : Config) : Except Bytes Unit :=
  if c.natsSubject.length ≠ 1 then .error b!"filter should only use one NATS subject"
  else validateFilterRules c.rule

/-- `validateDownsampler`, config/config.go:187-195. -/
def validateDownsampler (c : Config) : Except Bytes Unit :=
  if c.downsamplePeriod = 0 then .error b!"downsample_period must be set"
  else if c.downsampleSuffix = [] then .error b!"downsample_suffix must be set"
  else .ok ()

/-- The loop over the rules, config/config.go:214-224.  (`%q` is modelled for
subjects without characters that it escapes.) -/
def validateWriterRules : List RuleConf → Except Bytes Unit
  | [] => .ok ()
  | r :: rs =>
    if r.rtype = [] then .error b!"rule missing \"type\""
    else if r.match_ = [] then .error b!"rule missing \"match\""
    else if r.subject ≠ [] then .error (b!"writer rules shouldn't have subject (\"" ++ r.subject ++ b!"\")")
    else validateWriterRules rs

/-- `validateWriter`, config/config.go:197-226. -/
def validateWriter (c : Config) : Except Bytes Unit :=
  if c.natsSubject.length < 1 then .error b!"writer needs at least one NATS subject"
  else if c.influxDBPort < 1 || c.influxDBPort > 65535 then .error b!"influxdb_port out of range"
  else if c.influxDBProtocol ≠ b!"http" ∧ c.influxDBProtocol ≠ b!"https" then
    .error b!"influxdb_protocol can only be http or https"
  else if c.influxDBUser ≠ [] ∧ c.influxDBPass = [] then .error b!"$INFLUXDB_USER without $INFLUXDB_PASS"
  else if c.influxDBUser = [] ∧ c.influxDBPass ≠ [] then .error b!"$INFLUXDB_PASS without $INFLUXDB_USER"
  else validateWriterRules c.rule

/-- `Validate`, config/config.go:112-138. -/
def validate (c : Config) : Except Bytes Unit :=
  if c.probePort < 0 || c.probePort > 65535 then .error b!"probe_port out of range"
  else if c.pprofPort < 0 || c.pprofPort > 65535 then .error b!"pprof_port out of range"
  else if c.mode ≠ b!"downsampler" ∧ c.downsamplePeriod ≠ 0 then
    .error b!"downsample_period is only for downsampler mode"
  else if c.mode = b!"listener" ∨ c.mode = b!"listener_http" then validateListener c
  else if c.mode = b!"filter" then validateFilter c
  else if c.mode = b!"downsampler" then validateDownsampler c
  else if c.mode = b!"writer" then validateWriter c
  else if c.mode = b!"monitor" then .ok ()
  else .error (b!"invalid mode: " ++ c.mode)

/-! ## Reading files -/

/-- A `[[rule]]` table: the keys that are present. config/config.go:74-79. -/
structure RuleLayer where
  rtype : Option Bytes := none
  match_ : Option Bytes := none
  tags : Option (List (List Bytes)) := none
  subject : Option Bytes := none
  deriving DecidableEq, Repr

/-- A decoded configuration file: the keys that are present. config/config.go:38-71, 291. -/
structure Layer where
  name : Option Bytes := none
  mode : Option Bytes := none
  natsAddress : Option Bytes := none
  natsSubject : Option (List Bytes) := none
  natsSubjectMonitor : Option Bytes := none
  natsSubjectJunkyard : Option Bytes := none
  influxDBAddress : Option Bytes := none
  influxDBProtocol : Option Bytes := none
  influxDBPort : Option Int := none
  dbName : Option Bytes := none
  batchMaxCount : Option Int := none
  batchMaxSize : Option Nat := none
  batchMaxAge : Option Int := none
  port : Option Int := none
  workers : Option Int := none
  writeTimeout : Option Int := none
  writerRetryBatches : Option Int := none
  writerRetryInterval : Option Int := none
  writerRetryTimeout : Option Int := none
  readBufferSize : Option Nat := none
  natsMaxPendingSize : Option Nat := none
  rule : Option (List RuleLayer) := none
  maxTimeDelta : Option Int := none
  statsInterval : Option Int := none
  probePort : Option Int := none
  pprofPort : Option Int := none
  debug : Option Bool := none
  downsamplePeriod : Option Int := none
  downsampleSuffix : Option Bytes := none
  queueGroup : Option Bytes := none
  deriving DecidableEq, Repr

/-- Decoding one `[[rule]]` table into an existing `Rule`: keys that are absent
are left as they are (`toml.DecodeReader`, called at config/config.go:291). -/
def decodeRule (r : RuleConf) (l : RuleLayer) : RuleConf where
  rtype := l.rtype.getD r.rtype
  match_ := l.match_.getD r.match_
  tags := l.tags.getD r.tags
  subject := l.subject.getD r.subject

/-- Decoding an array of tables into an existing slice (`unifySlice` of
BurntSushi/toml v0.3.1, called at config/config.go:291): if the slice has room
its elements are decoded in place, otherwise a new slice is made.  The capacity
of the existing slice is its length, since it is either nil or made by the same
function from the other file. -/
def decodeRules (old : List RuleConf) (ls : List RuleLayer) : List RuleConf :=
  if old.length < ls.length then ls.map (decodeRule {})
  else old.zipWith decodeRule ls

/-- `toml.DecodeReader(f, conf)`, config/config.go:291: keys that are present
are stored into `conf`, others are left as they are. -/
def decodeInto (c : Config) (l : Layer) : Config where
  name := l.name.getD c.name
  mode := l.mode.getD c.mode
  natsAddress := l.natsAddress.getD c.natsAddress
  natsSubject := l.natsSubject.getD c.natsSubject
  natsSubjectMonitor := l.natsSubjectMonitor.getD c.natsSubjectMonitor
  natsSubjectJunkyard := l.natsSubjectJunkyard.getD c.natsSubjectJunkyard
  influxDBAddress := l.influxDBAddress.getD c.influxDBAddress
  influxDBProtocol := l.influxDBProtocol.getD c.influxDBProtocol
  influxDBPort := l.influxDBPort.getD c.influxDBPort
  influxDBUser := c.influxDBUser
  influxDBPass := c.influxDBPass
  dbName := l.dbName.getD c.dbName
  batchMaxCount := l.batchMaxCount.getD c.batchMaxCount
  batchMaxSize := l.batchMaxSize.getD c.batchMaxSize
  batchMaxAge := l.batchMaxAge.getD c.batchMaxAge
  port := l.port.getD c.port
  workers := l.workers.getD c.workers
  writeTimeout := l.writeTimeout.getD c.writeTimeout
  writerRetryBatches := l.writerRetryBatches.getD c.writerRetryBatches
  writerRetryInterval := l.writerRetryInterval.getD c.writerRetryInterval
  writerRetryTimeout := l.writerRetryTimeout.getD c.writerRetryTimeout
  readBufferSize := l.readBufferSize.getD c.readBufferSize
  natsMaxPendingSize := l.natsMaxPendingSize.getD c.natsMaxPendingSize
  rule := match l.rule with
    | none => c.rule
    | some rs => decodeRules c.rule rs
  maxTimeDelta := l.maxTimeDelta.getD c.maxTimeDelta
  statsInterval := l.statsInterval.getD c.statsInterval
  probePort := l.probePort.getD c.probePort
  pprofPort := l.pprofPort.getD c.pprofPort
  debug := l.debug.getD c.debug
  downsamplePeriod := l.downsamplePeriod.getD c.downsamplePeriod
  downsampleSuffix := l.downsampleSuffix.getD c.downsampleSuffix
  queueGroup := l.queueGroup.getD c.queueGroup

/-- What opening and decoding a file may give. config/config.go:285, 291. -/
inductive FileState where
  | notExist
  | unreadable (err : Bytes)
  | invalid (err : Bytes)
  | decoded (l : Layer)
  deriving DecidableEq, Repr

/-- The errors of `readConfig`; `missing` is the one for which `os.IsNotExist`
holds. config/config.go:284-296, with 232. -/
inductive ReadErr where
  | missing
  | other (err : Bytes)
  deriving DecidableEq, Repr

/-- `readConfig`, config/config.go:284-296. -/
def readConfig (fs : Bytes → FileState) (fileName : Bytes) (c : Config) : Except ReadErr Config :=
  match fs fileName with
  | .notExist => .error .missing
  | .unreadable e => .error (.other e)
  | .invalid e => .error (.other (fileName ++ b!": " ++ e))
  | .decoded l => .ok (decodeInto c l)

/-! ## The default name -/

/-- `'/'`. config/config.go:300. -/
abbrev SLASH : Byte := 47
/-- `'.'`. config/config.go:303. -/
abbrev DOT : Byte := 46

/-- `filepath.Base` of the standard library, on Unix. config/config.go:300. -/
def base (path : Bytes) : Bytes :=
  if path = [] then [DOT]
  else
    let trimmed := (path.reverse.dropWhile (· == SLASH)).reverse
    let last := (trimmed.reverse.takeWhile (· != SLASH)).reverse
    if last = [] then [SLASH] else last

/-- `filepath.Ext` of the standard library, on Unix: from the last dot of the
last element on. config/config.go:303. -/
def ext (path : Bytes) : Bytes :=
  let last := (path.reverse.takeWhile (· != SLASH)).reverse
  if DOT ∈ last then DOT :: (last.reverse.takeWhile (· != DOT)).reverse else []

/-- `pathToConfigName`, config/config.go:298-308. -/
def pathToConfigName (path : Bytes) : Bytes :=
  let path := base path
  let e := ext path
  if e = [] then path else path.take (path.length - e.length)

/-! ## NewConfigFromFile -/

/-- `commonFileName`, config/config.go:31. -/
def commonFileName : Bytes := b!"/etc/influx-spout.toml"

/-- Dynamic default of the name, config/config.go:244-246. -/
def setName (fileName : Bytes) (c : Config) : Config :=
  if c.name = [] then { c with name := pathToConfigName fileName } else c

/-- Dynamic default of the batch size, config/config.go:248-255. -/
def setBatchMaxSize (c : Config) : Config :=
  if c.batchMaxSize = 0 then
    if c.mode = b!"listener" ∨ c.mode = b!"listener_http" then { c with batchMaxSize := MB }
    else { c with batchMaxSize := 10 * MB }
  else c

/-- Dynamic default of the port, config/config.go:257-266. -/
def setPort (c : Config) : Config :=
  if c.port = 0 then
    if c.mode = b!"listener" then { c with port := 10001 }
    else if c.mode = b!"listener_http" then { c with port := 13337 }
    else if c.mode = b!"monitor" then { c with port := 9331 }
    else c
  else c

/-- Dynamic default of the sampling period, config/config.go:268-270. -/
def setPeriod (c : Config) : Config :=
  if c.mode = b!"downsampler" ∧ c.downsamplePeriod = 0 then { c with downsamplePeriod := minute } else c

/-- Credentials, config/config.go:272-275. -/
def setCredentials (env : Bytes → Bytes) (c : Config) : Config :=
  if c.mode = b!"writer" then
    { c with influxDBUser := env b!"INFLUXDB_USER", influxDBPass := env b!"INFLUXDB_PASS" }
  else c

/-- The dynamic defaults, config/config.go:243-275. -/
def dynamicDefaults (env : Bytes → Bytes) (fileName : Bytes) (c : Config) : Config :=
  setCredentials env (setPeriod (setPort (setBatchMaxSize (setName fileName c))))

/-- `NewConfigFromFile`, config/config.go:230-282.  Errors are not told apart. -/
def newConfigFromFile (fs : Bytes → FileState) (env : Bytes → Bytes) (fileName : Bytes) : Option Config :=
  match (match readConfig fs commonFileName newDefaultConfig with
      | .ok c => some c
      | .error .missing => some newDefaultConfig
      | .error (.other _) => none) with
  | none => none
  | some c => match readConfig fs fileName c with
    | .error _ => none
    | .ok c =>
      if c.mode = [] then none
      else
        let c := dynamicDefaults env fileName c
        match validate c with
        | .error _ => none
        | .ok () => some c

/-! ## RuleSetFromConfig -/

/-- `raw[i]`: panics when out of range. filter/rules.go:104. -/
def at' (raw : List Bytes) (i : Nat) : Go Bytes :=
  match raw[i]? with
  | some b => .ok b
  | none => .panic

/-- The conversion of the tags, filter/rules.go:101-106. -/
def convertTags : List (List Bytes) → Go (List Tag)
  | [] => .ok []
  | raw :: rest => do
    let k ← at' raw 0
    let v ← at' raw 1
    let ts ← convertTags rest
    return ⟨k, v⟩ :: ts

/-- `regexp.MustCompile`; `compile` is `regexp.Compile`. filter/rules.go:59, 71. -/
def mustCompile (compile : Bytes → Option (Bytes → Bool)) (s : Bytes) : Go (Bytes → Bool) :=
  match compile s with
  | some re => .ok re
  | none => .panic

/-- `RuleSetFromConfig`, filter/rules.go:93-118; `none` is an error. -/
def ruleSetFromConfig (compile : Bytes → Option (Bytes → Bool)) : List RuleConf → Go (Option (List Rule))
  | [] => .ok (some [])
  | r :: rs => do
    let first : Option Rule ←
      if r.rtype = b!"basic" then pure (some (createBasicRule r.match_ r.subject))
      else if r.rtype = b!"tags" then do
        let ts ← convertTags r.tags
        pure (some (createTagRule ts r.subject))
      else if r.rtype = b!"regex" then do
        let re ← mustCompile compile r.match_
        pure (some (createRegexRule re r.subject))
      else if r.rtype = b!"negregex" then do
        let re ← mustCompile compile r.match_
        pure (some (createNegRegexRule re r.subject))
      else pure none
    match first with
    | none => return none
    | some rule => do
      let rest ← ruleSetFromConfig compile rs
      return rest.map (rule :: ·)

end Spout.Conf
