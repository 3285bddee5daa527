import Verif.Model.Config

/-! # What a configuration must satisfy

Written from the README and the needs of the components, without reference to
the validation functions. -/

namespace Spout.Conf.Spec
open Spout.Conf

/-- A TCP or UDP port, possibly 0 for "none". -/
def PortOrNone (p : Int) : Prop := 0 ≤ p ∧ p ≤ 65535
/-- A real port. -/
def IsPort (p : Int) : Prop := 1 ≤ p ∧ p ≤ 65535

/-- A listener has a port, one subject and batches that NATS accepts. -/
def ListenerOK (c : Config) : Prop :=
  IsPort c.port ∧ (∃ s, c.natsSubject = [s]) ∧ c.batchMaxSize ≤ 1024 * 1024

/-- A complete filter rule. -/
def FilterRuleOK (r : RuleConf) : Prop :=
  r.subject ≠ [] ∧
  ((r.rtype = b!"tags" ∧ r.match_ = [] ∧ r.tags ≠ [] ∧ ∀ t ∈ r.tags, ∃ k v, t = [k, v]) ∨
   (r.rtype ≠ b!"tags" ∧ r.rtype ≠ [] ∧ r.match_ ≠ [] ∧ r.tags = []))

/-- A filter has one subject and complete rules. -/
def FilterOK (c : Config) : Prop :=
  (∃ s, c.natsSubject = [s]) ∧ ∀ r ∈ c.rule, FilterRuleOK r

/-- A downsampler has a period and a suffix. -/
def DownsamplerOK (c : Config) : Prop := c.downsamplePeriod ≠ 0 ∧ c.downsampleSuffix ≠ []

/-- A writer has subjects, a valid address, complete credentials, and rules
with a type and a match and without a subject. -/
def WriterOK (c : Config) : Prop :=
  c.natsSubject ≠ [] ∧ IsPort c.influxDBPort ∧
  (c.influxDBProtocol = b!"http" ∨ c.influxDBProtocol = b!"https") ∧
  (c.influxDBUser = [] ↔ c.influxDBPass = []) ∧
  ∀ r ∈ c.rule, r.rtype ≠ [] ∧ r.match_ ≠ [] ∧ r.subject = []

/-- What is required in each mode. -/
inductive ModeOK (c : Config) : Prop where
  | listener (h : c.mode = b!"listener") (ok : ListenerOK c)
  | listenerHttp (h : c.mode = b!"listener_http") (ok : ListenerOK c)
  | filter (h : c.mode = b!"filter") (ok : FilterOK c)
  | downsampler (h : c.mode = b!"downsampler") (ok : DownsamplerOK c)
  | writer (h : c.mode = b!"writer") (ok : WriterOK c)
  | monitor (h : c.mode = b!"monitor")

/-- An acceptable configuration. -/
structure Acceptable (c : Config) : Prop where
  probe : PortOrNone c.probePort
  pprof : PortOrNone c.pprofPort
  period : c.downsamplePeriod ≠ 0 → c.mode = b!"downsampler"
  mode : ModeOK c

/-- The value of a setting: from the given file, else from the common file,
else the default. -/
def setting {α : Type} (file common : Option α) (default : α) : α :=
  match file with
  | some v => v
  | none => match common with
    | some v => v
    | none => default

/-- The keys set by the common file: none if it does not exist. -/
def CommonKeys (fs : Bytes → FileState) (k : Layer) : Prop :=
  fs b!"/etc/influx-spout.toml" = .decoded k ∨ (fs b!"/etc/influx-spout.toml" = .notExist ∧ k = {})

end Spout.Conf.Spec
