import Verif.Model.Influx

/-! # Model of package `filter` (rules.go, worker.go)

The parsed measurement and tags are *views* into the memory of the line unless
they contained an escape; `SortTags` may overwrite that memory in place, so the
aliasing is modelled. -/

namespace Spout

/-! ## Slices that alias the line -/

/-- A `[]byte` that is either a sub-slice of the line's memory or separately
allocated. Go semantics; the slices of influx/tags.go:99-132 and filter/rules.go:164-244. -/
inductive Ref where
  | view (off len : Nat)
  | own (b : Bytes)
  deriving DecidableEq, Repr

/-- Contents of a slice, given the current contents of the line's memory. Go semantics; see `Ref`. -/
def Ref.get (mem : Bytes) : Ref → Bytes
  | .view off len => (mem.drop off).take len
  | .own b => b

/-- `len` of a slice. Go semantics; see `Ref`. -/
def Ref.len : Ref → Nat
  | .view _ len => len
  | .own b => b.length

/-- `influx.Tag` (influx/tags.go:31-34) holding possibly aliasing slices. -/
structure RTag where
  key : Ref
  value : Ref
  deriving DecidableEq, Repr

/-- Contents of a tag. influx/tags.go:31-34 (a tag), see `Ref`. -/
def RTag.get (mem : Bytes) (t : RTag) : Tag := ⟨t.key.get mem, t.value.get mem⟩

/-- `Token` (influx/token.go:21-27) with aliasing: the token is the sub-slice
`s[:i]` unless an escape was seen, then it is the slice allocated by
`Unescape` (influx/unescape.go:37).  `off` is the offset of `s` in the line. -/
def tokenRef (off : Nat) (s til : Bytes) : Go (Ref × Bytes) := do
  let (tok, rem, escaped) ← token s til
  if escaped then
    let u ← unescape tok
    return (.own u, rem)
  else return (.view off tok.length, rem)

/-- Result of `ParseTags` with aliasing. influx/tags.go:99-132, `ParseTags`. -/
structure RParsed where
  measurement : Ref
  tags : List RTag
  rest : Bytes
  deriving DecidableEq, Repr

/-- The loop of `ParseTags` (influx/tags.go:109-131) with aliasing; `n` is the
length of the whole line, so a suffix `s` of it starts at offset `n - len(s)`. -/
def parseTagsRefLoop (n : Nat) (m : Ref) : (fuel : Nat) → (line : Bytes) → (tags : List RTag) →
    Go (Option RParsed)
  | 0, _, _ => .panic
  | fuel + 1, line, tags =>
    if line.length = 0 then .ok (some ⟨m, tags, []⟩)
    else do
      let c ← idx line 0
      if c = SP then
        let r ← sliceFrom line 1
        return some ⟨m, tags, r⟩
      else
        let l1 ← sliceFrom line 1
        let (key, line) ← tokenRef (n - l1.length) l1 b!"= ,"
        if line.length = 0 then return none
        else
          let e ← idx line 0
          if e ≠ EQ then return none
          else
            let l2 ← sliceFrom line 1
            let (value, line) ← tokenRef (n - l2.length) l2 b!", "
            if value.len = 0 then return none
            else parseTagsRefLoop n m fuel line (tags ++ [⟨key, value⟩])

/-- `ParseTags` (influx/tags.go:99-132) with aliasing.
`Lemmas/Filter.lean: parseTagsRef_get` proves that forgetting the aliasing
gives `parseTags`. -/
def parseTagsRef (line : Bytes) : Go (Option RParsed) := do
  let (m, rest) ← tokenRef 0 line b!", "
  if rest.length = 0 then return some ⟨m, [], []⟩
  else parseTagsRefLoop line.length m (rest.length + 1) rest []

/-! ## Sorting -/

/-- `sort.Sort` (Go standard library) as an unknown function: it permutes and
sorts.  It depends only on the keys, so it is polymorphic; the relative order
of elements with equal keys is not specified. -/
structure Sorter where
  sort : {α : Type} → (α → Bytes) → List α → List α
  perm : ∀ {α : Type} (key : α → Bytes) (l : List α), (sort key l).Perm l
  sorted : ∀ {α : Type} (key : α → Bytes) (l : List α),
    (sort key l).Pairwise fun a b => bytesLt (key b) (key a) = false
  /-- only the keys matter: sorting commutes with relabelling -/
  natural : ∀ {α β : Type} (f : α → β) (key : β → Bytes) (l : List α),
    (sort (fun a => key (f a)) l).map f = sort key (l.map f)

/-- `sort.IsSorted` on tags, used at filter/rules.go:213: no element is less
than its predecessor. -/
def isSortedTags : List Tag → Bool
  | [] => true
  | [_] => true
  | a :: b :: rest => !(b.less a) && isSortedTags (b :: rest)

/-! ## rules.go -/

/-- `parsedLine`, filter/rules.go:185-194.  `mem` is the memory of the raw
line, into which `measurement` and `tags` may point; `escaped` is the field
`Escaped`.  (`Remainder` also points into `mem`, but beyond the part that
`SortTags` overwrites, so it is kept by value.) -/
structure PLine where
  mem : Bytes
  escaped : Bytes
  unescaped : Option Bytes
  measurement : Ref
  hashed : Option UInt32
  tags : List RTag
  remainder : Bytes
  deriving DecidableEq, Repr

/-- `newParsedLine`, filter/rules.go:165-177. -/
def newParsedLine (escaped : Bytes) : Go (Option PLine) := do
  match ← parseTagsRef escaped with
  | none => return none
  | some p => return some {
      mem := escaped, escaped := escaped, unescaped := none,
      measurement := p.measurement, hashed := none, tags := p.tags, remainder := p.rest }

/-- `SortTags`, filter/rules.go:212-244. -/
def sortTags (S : Sorter) (pl : PLine) : PLine :=
  if isSortedTags (pl.tags.map (·.get pl.mem)) then pl                        -- 213-216
  else
    let tags := S.sort (fun t => t.key.get pl.mem) pl.tags                    -- 218
    let newHdr := escapeMeasurement (pl.measurement.get pl.mem) ++ [COMMA]
      ++ tagBytes (tags.map (·.get pl.mem))                                   -- 222-225
    if pl.remainder.length = 0 then                                           -- 227-231
      { pl with tags := tags, escaped := newHdr }
    else if newHdr.length + pl.remainder.length + 1 = pl.escaped.length then  -- 233-238
      let mem' := newHdr ++ pl.mem.drop newHdr.length
      { pl with tags := tags, mem := mem', escaped := mem' }
    else                                                                      -- 241-243
      { pl with tags := tags, escaped := newHdr ++ [SP] ++ pl.remainder }

/-- FNV-1, 32 bit (`hash/fnv.New32`), used by `hashMeasurement`,
filter/rules.go:50-54. -/
def fnv32 (b : Bytes) : UInt32 :=
  b.foldl (fun h c => (h * 16777619) ^^^ c.toUInt32) 2166136261

/-- The four rule kinds, filter/rules.go:39-89.  The compiled regular
expression is an arbitrary predicate on byte strings. -/
inductive Matcher where
  | basic (hh : UInt32)
  | regex (re : Bytes → Bool)
  | negregex (re : Bytes → Bool)
  | tags (ts : List Tag)

/-- `Rule`, filter/rules.go:29-35. -/
structure Rule where
  matcher : Matcher
  subject : Bytes

/-- `CreateBasicRule`, filter/rules.go:39-48. -/
def createBasicRule (name subject : Bytes) : Rule := ⟨.basic (fnv32 name), subject⟩
/-- `CreateRegexRule`, filter/rules.go:58-66. -/
def createRegexRule (re : Bytes → Bool) (subject : Bytes) : Rule := ⟨.regex re, subject⟩
/-- `CreateNegativeRegexRule`, filter/rules.go:70-78. -/
def createNegRegexRule (re : Bytes → Bool) (subject : Bytes) : Rule := ⟨.negregex re, subject⟩
/-- `CreateTagRule`, filter/rules.go:82-89. -/
def createTagRule (ts : List Tag) (subject : Bytes) : Rule := ⟨.tags ts, subject⟩

/-- `Unescaped`, filter/rules.go:196-202, with its cache. -/
def PLine.getUnescaped (pl : PLine) : Go (Bytes × PLine) :=
  match pl.unescaped with
  | some u => .ok (u, pl)
  | none => do
    let u ← unescape pl.escaped
    return (u, { pl with unescaped := some u })

/-- `HashedMeasurement`, filter/rules.go:204-210, with its cache. -/
def PLine.getHashed (pl : PLine) : UInt32 × PLine :=
  match pl.hashed with
  | some h => (h, pl)
  | none =>
    let h := fnv32 (pl.measurement.get pl.mem)
    (h, { pl with hashed := some h })

/-- `rule.match(line)`, filter/rules.go:43-45, 61-63, 73-75, 84-86. -/
def Matcher.run (m : Matcher) (pl : PLine) : Go (Bool × PLine) :=
  match m with
  | .basic hh => let (h, pl) := pl.getHashed; .ok (hh == h, pl)
  | .regex re => do let (u, pl) ← pl.getUnescaped; return (re u, pl)
  | .negregex re => do let (u, pl) ← pl.getUnescaped; return (!re u, pl)
  | .tags ts => .ok (subsetOf ts (pl.tags.map (·.get pl.mem)), pl)

/-- `LookupParsed`, filter/rules.go:156-163; `none` is −1.  The first argument
is the index of the first rule of the list. -/
def lookupParsed : Nat → List Rule → PLine → Go (Option Nat)
  | _, [], _ => .ok none
  | i, r :: rs, pl => do
    let (m, pl) ← r.matcher.run pl
    if m then return some i else lookupParsed (i + 1) rs pl

/-- `Lookup`, filter/rules.go:145-151. -/
def lookup (rules : List Rule) (escaped : Bytes) : Go (Option Nat) := do
  match ← newParsedLine escaped with
  | none => return none
  | some pl => lookupParsed 0 rules pl

/-! ## worker.go -/

/-- `minTsLen`, filter/worker.go:165. -/
def minTsLen : Nat := 18

/-- `extractTimestamp`, filter/worker.go:167-178. -/
def filterTimestamp (line : Bytes) (defaultTs : Int) : Go Int :=
  if line.length ≤ minTsLen + 6 then .ok defaultTs
  else do
    let (out, _) ← extractNanos line
    if out = -1 then return defaultTs else return out

/-- The filter's counters (filter/filter.go:32-39, 206-215; filter/worker.go:32)
as natural numbers (the wrap at 2^64 is not modelled).  `nats_dropped`, set
from the NATS library, is not modelled. -/
structure FStats where
  processed : Nat
  passed : Nat
  rejected : Nat
  invalidTime : Nat
  failedPublish : Nat
  triggered : List Nat
  deriving DecidableEq, Repr

/-- `initStats` and `stats.NewAnon`, filter/filter.go:62-63, 206-215. -/
def FStats.init (nRules : Nat) : FStats := ⟨0, 0, 0, 0, 0, List.replicate nRules 0⟩

/-- The `worker` fields that matter, filter/worker.go:28-38. -/
structure FWorker where
  maxTimeDelta : Int
  rules : List Rule
  junkSubject : Bytes
  batches : List Bytes
  junkBatch : Bytes

/-- `newWorker`, filter/worker.go:40-70. -/
def FWorker.new (delta : Int) (rules : List Rule) (junk : Bytes) : FWorker :=
  ⟨delta, rules, junk, List.replicate rules.length [], []⟩

/-- `processLine`, filter/worker.go:114-135.  A panic on `w.batches[idx]` is
modelled. -/
def FWorker.processLine (S : Sorter) (w : FWorker) (st : FStats) (rawLine : Bytes) :
    Go (FWorker × FStats) := do
  match ← newParsedLine rawLine with
  | none => return (w, st)                                                  -- 116-118
  | some pl =>
    let line := sortTags S pl                                               -- 120
    match ← lookupParsed 0 w.rules line with
    | none =>                                                               -- 123-128
      return ({ w with junkBatch := w.junkBatch ++ line.escaped },
              { st with rejected := st.rejected + 1 })
    | some i =>
      if i < w.batches.length ∧ i < st.triggered.length then
        return ({ w with batches := w.batches.modify i (· ++ line.escaped) }, -- 131
                { st with passed := st.passed + 1,                             -- 133-134
                          triggered := st.triggered.modify i (· + 1) })
      else .panic

/-- The line loop of `processBatch`, filter/worker.go:93-108. -/
def FWorker.processLines (S : Sorter) (now minTs maxTs : Int) :
    FWorker → FStats → List Bytes → Go (FWorker × FStats)
  | w, st, [] => .ok (w, st)
  | w, st, line :: lines => do
    if line.length = 0 then FWorker.processLines S now minTs maxTs w st lines
    else
      let st := { st with processed := st.processed + 1 }
      let ts ← filterTimestamp line now
      if minTs < ts ∧ ts < maxTs then
        let (w, st) ← w.processLine S st line
        FWorker.processLines S now minTs maxTs w st lines
      else
        FWorker.processLines S now minTs maxTs w { st with invalidTime := st.invalidTime + 1 } lines

/-- One call of `nc.Publish`, filter/worker.go:153-161, and its outcome. -/
structure Pub where
  subject : Bytes
  data : Bytes
  failed : Bool
  deriving DecidableEq, Repr

/-- `sendOff`, filter/worker.go:137-151.  `fail k` says whether the k-th
publish of this call fails. -/
def FWorker.sendOff (w : FWorker) (st : FStats) (fail : Nat → Bool) : FWorker × FStats × List Pub :=
  let subjects := w.rules.map (·.subject)
  let items := (subjects.zip w.batches).filter (fun p => p.2.length > 0)
  let items := items ++ (if w.junkBatch.length > 0 then [(w.junkSubject, w.junkBatch)] else [])
  let pubs := items.zipIdx.map fun (p, k) => (⟨p.1, p.2, fail k⟩ : Pub)
  ({ w with batches := w.batches.map (fun _ => []), junkBatch := [] },
   { st with failedPublish := st.failedPublish + pubs.countP (·.failed) },
   pubs)

/-- `processBatch`, filter/worker.go:88-112; `now` is `time.Now().UnixNano()`. -/
def FWorker.processBatch (S : Sorter) (w : FWorker) (st : FStats) (now : Int) (fail : Nat → Bool)
    (batch : Bytes) : Go (FWorker × FStats × List Pub) := do
  let minTs := wrap64 (now - w.maxTimeDelta)
  let maxTs := wrap64 (now + w.maxTimeDelta)
  let (w, st) ← FWorker.processLines S now minTs maxTs w st (splitAfterNL batch)
  return w.sendOff st fail

/-! ## The job loop -/

/-- A message handled by a worker: clock reading, publish outcomes, data. filter/worker.go:80-81, 89, 154. -/
structure FMsg where
  now : Int
  fail : Nat → Bool
  data : Bytes

/-- The job loop of the workers, filter/worker.go:72-86, over a history of messages.
All workers share the counters; since a worker is as new after each message
(`C16_one_message`) it does not matter which worker takes which message. -/
def filterRun (S : Sorter) : FWorker → FStats → List FMsg → Go (FWorker × FStats × List (List Pub))
  | w, st, [] => .ok (w, st, [])
  | w, st, m :: ms => do
    let (w, st, pubs) ← w.processBatch S st m.now m.fail m.data
    let (w, st, rest) ← filterRun S w st ms
    return (w, st, pubs :: rest)

end Spout
