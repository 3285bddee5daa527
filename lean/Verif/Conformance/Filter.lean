import Verif.Lemmas.Filter
import Verif.Model.Config
import Verif.Model.Splitter
import Verif.Model.Batch

/-! # The model runs the project's own tests: filter, batchsplitter, batch

See Conformance/Influx.  The regular expressions of the tests are given as
hand written predicates, since package `regexp` is not modelled. -/

namespace Spout.Conformance

open Conf

/-- `sub` occurs in `s`. -/
def has (sub s : Bytes) : Bool := (List.range (s.length + 1)).any fun i => sub.isPrefixOf (s.drop i)

/-- `hell +o` -/
def hellO (s : Bytes) : Bool :=
  (List.range (s.length + 1)).any fun i => b!"hell ".isPrefixOf (s.drop i) && [111].isPrefixOf ((s.drop (i + 4)).dropWhile (· == 32))

/-- filter/rules_small_test.go: TestBasicRule -/
example : ([
    (b!"hello,a=b x=y", some 0),
    (b!"hello a=b,x=y", some 0),
    (b!"cocacola a=b x=y", none),
    (b!"pepsi,a=b x=y", none),
    (b!"pepsi,hello=b x=y", none),
    (b!"pepsi,a=b hello=y", none) ].all fun (p : Bytes × Option Nat) => decide (lookup [createBasicRule b!"hello" b!""] p.1 = .ok p.2)) = true := by decide +kernel

/-- filter/rules_small_test.go: TestBasicRuleUnescapes -/
example : ([
    (b!"hell\\ o foo=bar", some 0),
    (b!"hell\\ o,foo=bar", some 0),
    (b!"hell o foo=bar", none),
    (b!"hell\\,o foo=bar", none) ].all fun (p : Bytes × Option Nat) => decide (lookup [createBasicRule b!"hell o" b!""] p.1 = .ok p.2)) = true := by decide +kernel

/-- filter/rules_small_test.go: TestRegexRule -/
example : ([
    (b!"hello,host=gopher01 somefield=11,etc=false", some 0),
    (b!"bye,host=gopher01 somefield=11,etc=false", some 0),
    (b!"cocacola,host=gopher01 somefield=11,etc=true", none),
    (b!"pepsi host=gopher01,somefield=11,etc=true", none) ].all fun (p : Bytes × Option Nat) => decide (lookup [createRegexRule (fun s => b!"hel".isPrefixOf s || has b!",etc=false" s) b!""] p.1 = .ok p.2)) = true := by decide +kernel

/-- filter/rules_small_test.go: TestRegexRuleUnescapes -/
example : ([
    (b!"hell\\ o x=y", some 0),
    (b!"hell\\ \\ oworld x=y", some 0),
    (b!"foo hell\\ o=y", some 0),
    (b!"hell x=1,x=y", none) ].all fun (p : Bytes × Option Nat) => decide (lookup [createRegexRule hellO b!""] p.1 = .ok p.2)) = true := by decide +kernel

/-- filter/rules_small_test.go: TestNegativeRegexRule -/
example : ([
    (b!"hello,host=gopher01 x=y", none),
    (b!"bye,host=gopher01 x=low", none),
    (b!"HELLO,host=gopher01 x=y", some 0),
    (b!"bye,host=gopher01 x=high", some 0) ].all fun (p : Bytes × Option Nat) => decide (lookup [createNegRegexRule (fun s => has b!"hel" s || has b!"low" s) b!""] p.1 = .ok p.2)) = true := by decide +kernel

/-- filter/rules_small_test.go: TestNegativeRegexRuleUnescapes -/
example : ([
    (b!"hell\\ o,host=gopher01 x=y", none),
    (b!"bye,host=gopher01 x=hell\\ \\ o", none),
    (b!"HELLO,host=gopher01 x=y", some 0),
    (b!"bye,host=gopher01 x=hello", some 0) ].all fun (p : Bytes × Option Nat) => decide (lookup [createNegRegexRule hellO b!""] p.1 = .ok p.2)) = true := by decide +kernel

/-- filter/rules_small_test.go: TestTagRuleSingle -/
example : ([
    (b!"foo,key=value x=22", some 0),
    (b!"foo,key=value,host=gopher01 x=22", some 0),
    (b!"foo,host=gopher01,key=value x=22", some 0),
    (b!"foo,host=gopher01,key=value,dc=ac x=22", some 0),
    (b!"foo", none),
    (b!"foo x=22", none),
    (b!"foo,key=other x=22", none),
    (b!"foo,host=gopher01 x=22", none) ].all fun (p : Bytes × Option Nat) => decide (lookup [createTagRule [⟨b!"key", b!"value"⟩] b!""] p.1 = .ok p.2)) = true := by decide +kernel

/-- filter/rules_small_test.go: TestTagRuleMulti -/
example : ([
    (b!"foo,dc=nyc,host=db01 x=22", some 0),
    (b!"foo,alt=2000,dc=nyc,host=db01,lift=123 x=22", some 0),
    (b!"foo,dc=sfo,dc=nyc,host=db01,host=xxx x=22", some 0),
    (b!"foo,host=db01 x=22", none),
    (b!"foo,dc=nyc x=22", none) ].all fun (p : Bytes × Option Nat) => decide (lookup [createTagRule [⟨b!"host", b!"db01"⟩, ⟨b!"dc", b!"nyc"⟩] b!""] p.1 = .ok p.2)) = true := by decide +kernel

/-- filter/rules_small_test.go: TestTagRuleEscaping -/
example : ([
    (b!"foo,ke\\ y=val\\,ue x=22", some 0),
    (b!"foo,ke\\ y=val\\,ue,host=gopher01 x=22", some 0),
    (b!"foo,host=gopher01,ke\\ y=val\\,ue x=22", some 0),
    (b!"foo,host=gopher01,ke\\ y=val\\,ue,dc=ac x=22", some 0),
    (b!"foo,k\\=k=v\\=v x=22", some 1),
    (b!"foo,ke y=val,ue x=22", none),
    (b!"foo,f=f=v=v x=22", none) ].all fun (p : Bytes × Option Nat) => decide (lookup [createTagRule [⟨b!"ke y", b!"val,ue"⟩] b!"", createTagRule [⟨b!"k=k", b!"v=v"⟩] b!""] p.1 = .ok p.2)) = true := by decide +kernel

/-- The configuration of TestRuleSet. -/
def ruleSetConf : List RuleConf := [
  { rtype := b!"basic", match_ := b!"basic-match", tags := [], subject := b!"basic-sub" },
  { rtype := b!"tags", match_ := b!"", tags := [[b!"foo", b!"bar"]], subject := b!"tags-sub" },
  { rtype := b!"regex", match_ := b!"regex-match", tags := [], subject := b!"regex-sub" },
  { rtype := b!"negregex", match_ := b!"negreg-match", tags := [], subject := b!"negregex-sub" }]

/-- filter/rules_small_test.go: TestRuleSet -/
example : (match ruleSetFromConfig (fun p => some (has p)) ruleSetConf with
    | .ok (some rs) => some (rs.length, rs.map (·.subject), [b!"basic-match x=22", b!"blah,foo=bar x=22",
        b!"blah,foo=regex-match x=22", b!"blah,foo=negreg-match"].map (lookup rs))
    | _ => none) = some (4, [b!"basic-sub", b!"tags-sub", b!"regex-sub", b!"negregex-sub"],
      [.ok (some 0), .ok (some 1), .ok (some 2), .ok none]) := by decide +kernel

/-- filter/rules_small_test.go: TestLineTagSorting -/
example : ([
    (b!"foo,dc=chc,host=abc01,mega=y something=123", b!"foo,dc=chc,host=abc01,mega=y something=123"),
    (b!"foo,host=abc01,dc=chc,mega=y something=123", b!"foo,dc=chc,host=abc01,mega=y something=123"),
    (b!"foo,dc=chc,dir=\\=\\=>,the\\ host=abc01 something=123", b!"foo,dc=chc,dir=\\=\\=>,the\\ host=abc01 something=123"),
    (b!"foo,dir=\\=\\=>,dc=chc,the\\ host=abc01 something=123", b!"foo,dc=chc,dir=\\=\\=>,the\\ host=abc01 something=123"),
    (b!"foo,host=abc01,dc=chc,mega=y", b!"foo,dc=chc,host=abc01,mega=y")].all fun p => decide ((do return (← newParsedLine p.1).map fun pl => (sortTags insertionSorter pl).escaped : Go (Option Bytes)) = .ok (some p.2))) = true := by decide +kernel

/-- filter/filter_medium_test.go: TestFilterWorker -/
example : (match FWorker.processBatch insertionSorter (FWorker.new 600000000000 [createBasicRule b!"hello" b!"hello-subject"] b!"filter-junkyard")
      (FStats.init 1) 1700000000000000000 (fun _ => false) b!"hello,host=gopher01\ngoodbye,host=gopher01\nhello,host=gopher01\n" with
    | .ok (_, st, pubs) => some (st, pubs)
    | .panic => none) = some (
      ⟨3, 2, 1, 0, 0, [2]⟩,
      [⟨b!"hello-subject", b!"hello,host=gopher01\nhello,host=gopher01\n", false⟩, ⟨b!"filter-junkyard", b!"goodbye,host=gopher01\n", false⟩]) := by decide +kernel

/-- filter/filter_medium_test.go: TestInvalidTimeStamps -/
example : (match FWorker.processBatch insertionSorter (FWorker.new 10000000000 [createBasicRule b!"hello" b!"hello-subject"] b!"filter-junkyard")
      (FStats.init 1) 1700000000000000005 (fun _ => false) b!"hello,instance=0 foo=0 1699999989000000000\nhello,instance=1 foo=0 1700000011000000000\nhello,instance=2 foo=1 1700000000000000000\nhello,instance=2 foo=3" with
    | .ok (_, st, pubs) => some (st, pubs)
    | .panic => none) = some (
      ⟨4, 2, 0, 2, 0, [2]⟩,
      [⟨b!"hello-subject", b!"hello,instance=2 foo=1 1700000000000000000\nhello,instance=2 foo=3", false⟩]) := by decide +kernel

/-- filter/filter_medium_test.go: TestTagSorting -/
example : (match FWorker.processBatch insertionSorter (FWorker.new 600000000000 [createBasicRule b!"hello" b!"hello-subject"] b!"filter-junkyard")
      (FStats.init 1) 1700000000000000000 (fun _ => false) b!"hello,host=gopher01,abc=xyz x=22\ngoodbye,dc=nyc,host=gopher01 x=22\nhello,abc=xyz,host=gopher01 x=22\ngoodbye,host=gopher01,dc=nyc,foo=bar x=22\nhello,mega=y,abc=xyz,host=gopher01 x=22\n" with
    | .ok (_, st, pubs) => some (st, pubs)
    | .panic => none) = some (
      ⟨5, 3, 2, 0, 0, [3]⟩,
      [⟨b!"hello-subject", b!"hello,abc=xyz,host=gopher01 x=22\nhello,abc=xyz,host=gopher01 x=22\nhello,abc=xyz,host=gopher01,mega=y x=22\n", false⟩, ⟨b!"filter-junkyard", b!"goodbye,dc=nyc,host=gopher01 x=22\ngoodbye,dc=nyc,foo=bar,host=gopher01 x=22\n", false⟩]) := by decide +kernel

/-- batchsplitter/batch_splitter_test.go -/
example : ([
    (b!"", 100, []),
    (b!"abcdefghij\n", 100, [b!"abcdefghij\n"]),
    (b!"abcd\nefg\nhij", 100, [b!"abcd\nefg\nhij"]),
    (b!"abcd\nefg\nhij", 12, [b!"abcd\nefg\nhij"]),
    (b!"1111\n2222\n333\n", 6, [b!"1111\n", b!"2222\n", b!"333\n"]),
    (b!"1111\n2222\n3333\n", 5, [b!"1111\n", b!"2222\n", b!"3333\n"]),
    (b!"01234567", 3, [b!"012", b!"345", b!"67"]),
    (b!"0123456\n88\n99", 3, [b!"012", b!"345", b!"6\n", b!"88\n", b!"99"])].all fun (p : Bytes × Nat × List Bytes) => decide (splitAll p.1 p.2.1 = .ok p.2.2)) = true := by decide +kernel

/-! batch/batch_small_test.go -/

open Batch

/-- What the tests look at. -/
def look (b : Batch) : Nat × Nat × Int × Bytes := (b.size, b.remaining, b.writes, b.bytes)

/-- TestNew -/
example : look (Batch.new 64 5) = (0, 64, 0, []) ∧ (Batch.new 64 5).age 9 = 0 := by decide +kernel

/-- TestAppend -/
example : (do let b ← (Batch.new 10 0).append b!"foo" 0; let c ← b.append b!"bar" 0; return [look b, look c] : Go (List (Nat × Nat × Int × Bytes)))
    = .ok [(3, 7, 1, b!"foo"), (6, 4, 2, b!"foobar")] := by decide +kernel

/-- TestAppendGrow -/
example : (do let b ← (Batch.new 2 0).append b!"foo" 0; let c ← b.append b!"bar" 0; return [look b, look c] : Go (List (Nat × Nat × Int × Bytes)))
    = .ok [(3, maxReadSize + 2 - 3, 1, b!"foo"), (6, maxReadSize - 4, 2, b!"foobar")] := by decide +kernel

/-- TestReadFrom -/
example : (do let (b, n) ← (Batch.new 10 0).readFrom ⟨[], b!"foo"⟩ 0; return (n, look b) : Go (Nat × Nat × Nat × Int × Bytes))
    = .ok (3, (3, maxReadSize + 10 - 3, 1, b!"foo")) := by decide +kernel

/-- TestReadFromNoData -/
example : (do let (b, n) ← (Batch.new 10 0).readFrom ⟨[], b!""⟩ 0; return (n, b.size, (b.writes : Int)) : Go (Nat × Nat × Int))
    = .ok (0, 0, 0) := by decide +kernel

/-- TestReadOnceFrom -/
example : (do let (b, n) ← (Batch.new 10 0).readOnceFrom b!"foo" 0; return (n, look b) : Go (Nat × Nat × Nat × Int × Bytes))
    = .ok (3, (3, maxReadSize + 10 - 3, 1, b!"foo")) := by decide +kernel

/-- TestReadOnceNoData -/
example : (do let (b, n) ← (Batch.new 10 0).readOnceFrom b!"" 0; return (n, b.size, (b.writes : Int)) : Go (Nat × Nat × Int))
    = .ok (0, 0, 0) := by decide +kernel

/-- TestReset -/
example : (do let b ← (Batch.new 10 0).append b!"foo" 0; return (look (b.reset 3), (b.reset 3).age 4) : Go ((Nat × Nat × Int × Bytes) × Int))
    = .ok ((0, 10, 0, []), 0) := by decide +kernel

/-- TestEnsureNewline -/
example : (do
      let b0 ← (Batch.new 64 0).ensureNewline
      let b1 ← (← b0.append b!"foo" 0).ensureNewline
      let b2 ← (← b1.append b!"bar\n" 0).ensureNewline
      return (b0.bytes, b1.bytes, b2.bytes, (b2.writes : Int)) : Go (Bytes × Bytes × Bytes × Int))
    = .ok ([], b!"foo\n", b!"foo\nbar\n", 2) := by decide +kernel

/-- TestAge, in seconds -/
example : (do
      let b := Batch.new 10 0
      let b1 ← b.append b!"foo" 120
      let b2 ← b1.append b!"bar" 180
      let b3 := b2.reset 300
      let b4 ← b3.append b!"foo" 301
      return [b.age 0, b.age 60, b.age 120, b1.age 120, b1.age 180, b2.age 180, b2.age 240, b3.age 300, b4.age 301, b4.age 302] : Go (List Int))
    = .ok [0, 0, 0, 0, 60, 60, 120, 0, 0, 1] := by decide +kernel

end Spout.Conformance
