import Verif.Lemmas.Filter
import Verif.Model.Downsampler
import Verif.Model.Float64
import Verif.Props.DownsamplerBucket

/-! # The model runs the project's own tests: downsampler

See Conformance/Influx.  The assigner's tests use a bucket that joins the lines;
the model has only the averaging bucket, which writes a line without fields
back, with the end time of the bucket. -/

namespace Spout.Conformance

/-- The floats are float64 (the tests have no numbers in hexadecimal). -/
def floats : FloatOps := binary64 fun _ => none

/-! ## avgbucket_small_test.go -/

/-- What the tests check after every `AddLine`: the errors and the lines (here with the end time 77). -/
def adds : Bucket floats → List Bytes → Go (List (List DErr × Bytes))
  | _, [] => return []
  | b, l :: ls => do
    let (b, errs) ← b.addLine l
    let rest ← adds b ls
    return (errs, b.bytes insertionSorter idOrder) :: rest

def bucket : Bucket floats := .new floats 77

/-- TestFloatField -/
example : adds bucket [b!"foo,host=nyc01 bar=1.0", b!"foo,host=nyc01 bar=2.1", b!"foo,host=nyc01 bar=3.2"]
    = .ok [([], b!"foo,host=nyc01 bar=1 77\n"), ([], b!"foo,host=nyc01 bar=1.55 77\n"), ([], b!"foo,host=nyc01 bar=2.1 77\n")] := by
  decide +kernel

/-- TestScientificFloatField -/
example : adds bucket [b!"foo,host=nyc01 sci=-1.24e+78", b!"foo,host=nyc01 sci=-1.30e+78"]
    = .ok [([], b!"foo,host=nyc01 sci=-1.24e+78 77\n"), ([], b!"foo,host=nyc01 sci=-1.27e+78 77\n")] := by decide +kernel

/-- TestFloatTypeChange -/
example : adds bucket [b!"foo,dc=nyc x=1.2", b!"foo,dc=nyc x=\"foo\""]
    = .ok [([], b!"foo,dc=nyc x=1.2 77\n"), ([.wrongFloat], b!"foo,dc=nyc x=1.2 77\n")] := by decide +kernel

/-- TestIntField -/
example : adds bucket [b!"foo,host=nyc01 bar=1i", b!"foo,host=nyc01 bar=3i", b!"foo,host=nyc01 bar=3i"]
    = .ok [([], b!"foo,host=nyc01 bar=1i 77\n"), ([], b!"foo,host=nyc01 bar=2i 77\n"), ([], b!"foo,host=nyc01 bar=2i 77\n")] := by
  decide +kernel

/-- TestIntTypeChange -/
example : adds bucket [b!"foo,dc=nyc x=42i", b!"foo,dc=nyc x=\"foo\""]
    = .ok [([], b!"foo,dc=nyc x=42i 77\n"), ([.wrongInt], b!"foo,dc=nyc x=42i 77\n")] := by decide +kernel

/-- TestStringField -/
example : adds bucket [b!"foo,host=nyc01 bar=\"alpha\"", b!"foo,host=nyc01 bar=\"beta\"",
      b!"foo,host=nyc01 bar=\"delta omega\"", b!"foo,host=nyc01 bar=\"delta \\\"omega\\\"\""]
    = .ok [([], b!"foo,host=nyc01 bar=\"alpha\" 77\n"), ([], b!"foo,host=nyc01 bar=\"beta\" 77\n"),
      ([], b!"foo,host=nyc01 bar=\"delta omega\" 77\n"), ([], b!"foo,host=nyc01 bar=\"delta \\\"omega\\\"\" 77\n")] := by
  decide +kernel

/-- TestUnterminatedStringField -/
example : adds bucket [b!"foo,host=nyc01 bar=\"delta omega"] = .ok [([.badString .missingTrailing], [])] := by decide +kernel

/-- TestOtherFieldValues -/
example : adds bucket [b!"foo,host=nyc01 bar=false", b!"foo,host=nyc01 bar=T", b!"foo,host=nyc01 bar=abcdef"]
    = .ok [([], b!"foo,host=nyc01 bar=false 77\n"), ([], b!"foo,host=nyc01 bar=T 77\n"), ([], b!"foo,host=nyc01 bar=abcdef 77\n")] := by
  decide +kernel

/-- TestMultipleFields -/
example : adds bucket [b!"foo,host=nyc01 b=t,c=123i", b!"foo,host=nyc01 c=321i,b=f", b!"foo,host=nyc01 c=444i,b=f,a=0.4"]
    = .ok [([], b!"foo,host=nyc01 b=t,c=123i 77\n"), ([], b!"foo,host=nyc01 b=f,c=222i 77\n"),
      ([], b!"foo,host=nyc01 a=0.4,b=f,c=296i 77\n")] := by decide +kernel

/-- TestMultipleTags, TestNoTags -/
example : adds bucket [b!"foo,dc=nyc,host=nyc01 b=t", b!"foo,dc=nyc,host=nyc01 b=f"]
      = .ok [([], b!"foo,dc=nyc,host=nyc01 b=t 77\n"), ([], b!"foo,dc=nyc,host=nyc01 b=f 77\n")] ∧
    adds bucket [b!"foo b=t", b!"foo b=false"] = .ok [([], b!"foo b=t 77\n"), ([], b!"foo b=false 77\n")] := by
  decide +kernel

/-- TestMeasurementOnly, TestMeasurementAndTagsOnly -/
example : adds bucket [b!"foo", b!"bar"] = .ok [([], b!"foo 77\n"), ([], b!"foo 77\nbar 77\n")] ∧
    adds bucket [b!"foo,dc=nyc", b!"bar,dc=sfo"] = .ok [([], b!"foo,dc=nyc 77\n"), ([], b!"foo,dc=nyc 77\nbar,dc=sfo 77\n")] := by
  decide +kernel

/-- TestEscapingInMeasurement, TestEscapingInTags, TestEscapingInFieldName -/
example : adds bucket [b!"fo\\,o bar=1i"] = .ok [([], b!"fo\\,o bar=1i 77\n")] ∧
    adds bucket [b!"foo,ab\\ cd=ef\\=gh bar=123i"] = .ok [([], b!"foo,ab\\ cd=ef\\=gh bar=123i 77\n")] ∧
    adds bucket [b!"foo ab\\ cd=123i"] = .ok [([], b!"foo ab\\ cd=123i 77\n")] := by decide +kernel

/-- TestInvalidField, TestMissingFieldValue -/
example : adds bucket [b!"foo x"] = .ok [([.invalidField], [])] ∧ adds bucket [b!"foo x="] = .ok [([.missingValue], [])] := by
  decide +kernel

/-- TestMultipleErrors -/
example : adds bucket [b!"foo x=1i,y=2", b!"foo x=1,y=2i"]
    = .ok [([], b!"foo x=1i,y=2 77\n"), ([.wrongInt, .wrongFloat], b!"foo x=1i,y=2 77\n")] := by decide +kernel

/-! ## assigner_small_test.go

The clock starts at 2018-08-28 14:11:00; times below are seconds from then. -/

def clock0 : Int := 1535465460
/-- Nanoseconds of a second of the test. -/
def at_ (s : Int) : Int := (clock0 + s) * 1000000000
/-- `makeLine`. -/
def makeLine (text : Bytes) (s : Int) : Bytes := text ++ [SP] ++ itoa (at_ s) ++ [NL]

/-- A call of a test. -/
inductive ACall where
  | update (lines : Bytes)
  | bytes
  | untilNext

/-- What it returns. -/
inductive ARes where
  | errs (l : List DErr)
  | out (b : Bytes)
  | dur (d : Int)
  deriving DecidableEq

/-- The calls at their times. -/
def acalls : Assigner floats → List (Int × ACall) → Go (List ARes)
  | _, [] => return []
  | a, (t, .update ls) :: cs => do
    let (a, e) ← a.update (fun _ => at_ t) ls
    return .errs e :: (← acalls a cs)
  | a, (t, .bytes) :: cs => do
    let (a, b) := a.bytes insertionSorter idOrder (at_ t)
    return .out b :: (← acalls a cs)
  | a, (t, .untilNext) :: cs => do
    return .dur (a.untilNext (at_ t)) :: (← acalls a cs)

def minute : Int := 60000000000
def assigner : Assigner floats := .new floats minute (at_ 0)

/-- TestAssignerEmpty -/
example : acalls assigner ((List.range 11).map fun (i : Nat) => (60 * (i : Int), .bytes)) = .ok (List.replicate 11 (.out [])) := by
  decide +kernel

/-- TestTooOld, TestTooNew -/
example : acalls assigner [(0, .update (makeLine b!"x" (-61)))] = .ok [.errs [.tooOld]] ∧
    acalls assigner [(0, .update (makeLine b!"x" 120))] = .ok [.errs [.tooNew]] := by decide +kernel

/-- TestPrevSlot -/
example : acalls assigner [(0, .update (makeLine b!"a" (-30))), (0, .update (makeLine b!"b" (-60))), (0, .update (makeLine b!"c" (-1))),
      (0, .bytes), (59, .bytes), (60, .bytes), (60, .bytes)]
    = .ok [.errs [], .errs [], .errs [], .out [], .out [], .out (makeLine b!"a" 0 ++ makeLine b!"b" 0 ++ makeLine b!"c" 0), .out []] := by
  decide +kernel

/-- TestCurrSlot -/
example : acalls assigner [(0, .update (makeLine b!"a" 0)), (0, .update (makeLine b!"b" 30)), (0, .update (makeLine b!"c" 59)),
      (0, .bytes), (60, .bytes), (119, .bytes), (120, .bytes), (120, .bytes)]
    = .ok [.errs [], .errs [], .errs [], .out [], .out [], .out [],
      .out (makeLine b!"a" 60 ++ makeLine b!"b" 60 ++ makeLine b!"c" 60), .out []] := by
  decide +kernel

/-- TestNextSlot -/
example : acalls assigner [(0, .update (makeLine b!"a" 60)), (0, .update (makeLine b!"b" 90)), (0, .update (makeLine b!"c" 119)),
      (0, .bytes), (60, .bytes), (120, .bytes), (179, .bytes), (180, .bytes), (180, .bytes)]
    = .ok [.errs [], .errs [], .errs [], .out [], .out [], .out [], .out [],
      .out (makeLine b!"a" 120 ++ makeLine b!"b" 120 ++ makeLine b!"c" 120), .out []] := by
  decide +kernel

/-- TestAllSlots -/
example : acalls assigner [(0, .update (makeLine b!"a" (-1))), (0, .update (makeLine b!"b" 0)), (0, .update (makeLine b!"c" 60)),
      (0, .bytes), (60, .bytes), (120, .bytes), (180, .bytes), (240, .bytes)]
    = .ok [.errs [], .errs [], .errs [], .out [], .out (makeLine b!"a" 0), .out (makeLine b!"b" 60),
      .out (makeLine b!"c" 120), .out []] := by
  decide +kernel

/-- TestMultipleInputLines -/
example : acalls assigner [(0, .update (makeLine b!"a0" (-1) ++ makeLine b!"a1" (-20) ++ makeLine b!"b0" 0 ++ makeLine b!"b1" 10
        ++ makeLine b!"c0" 60 ++ makeLine b!"c1" 90)),
      (60, .bytes), (120, .bytes), (180, .bytes), (240, .bytes)]
    = .ok [.errs [], .out (makeLine b!"a0" 0 ++ makeLine b!"a1" 0), .out (makeLine b!"b0" 60 ++ makeLine b!"b1" 60),
      .out (makeLine b!"c0" 120 ++ makeLine b!"c1" 120), .out []] := by
  decide +kernel

/-- TestNoTimestamp -/
example : acalls assigner [(0, .update b!"x"), (60, .bytes), (120, .bytes)] = .ok [.errs [], .out [], .out (makeLine b!"x" 60)] := by
  decide +kernel

/-- TestBucketErrors: the errors of the bucket are returned -/
example : acalls assigner [(0, .update (makeLine b!"x y" 0)), (0, .update (makeLine b!"x y=" 0))]
    = .ok [.errs [.invalidField], .errs [.missingValue]] := by
  decide +kernel

/-- TestUntilNext -/
example : acalls assigner [(0, .untilNext), (30, .untilNext), (59, .untilNext), (60, .untilNext), (60, .bytes), (60, .untilNext), (61, .untilNext)]
    = .ok [.dur minute, .dur 30000000000, .dur 1000000000, .dur 0, .out [], .dur minute, .dur 59000000000] := by
  decide +kernel

/-! ## downsampler_medium_test.go -/

/-- The two subjects of the test have one worker each. -/
def dsAfter (msg : Bytes) : Go (Bytes × DStats) := do
  let w := DWorker.new floats 1000000000 (at_ 0 + 400000000)
  let w ← w.run insertionSorter [
    ⟨.msg msg (fun _ => at_ 0 + 500000000), at_ 0 + 500000000, idOrder, fun _ => false⟩,
    ⟨.timeout, at_ 1, idOrder, fun _ => false⟩,
    ⟨.timeout, at_ 2, idOrder, fun _ => false⟩,
    ⟨.timeout, at_ 3, idOrder, fun _ => false⟩]
  return ((w.pubs.map LPub.data).flatten, w.stats)

/-- TestDownsampler, subject0: the archived lines and the share in the counters -/
example : dsAfter b!"string,host=host0 value=\"foo bar\"\nnums,host=host0 x=111i,y=1.5\nstring,host=host0 value=\"bar foo\"\nbool,host=0 b=true\nstring,host=host0 value=\"foo bar\"\nbool,host=1 b=false\nnums,host=host0 x=333i,y=2.5\nbool,host=0 b=false\nbool,host=1 b=true\ntoo_old_timestamp 123\n"
    = .ok (makeLine b!"string,host=host0 value=\"foo bar\"" 1 ++ makeLine b!"nums,host=host0 x=222i,y=2" 1
      ++ makeLine b!"bool,host=0 b=false" 1 ++ makeLine b!"bool,host=1 b=true" 1, ⟨1, 1, 0, 1, 0⟩) := by decide +kernel

/-- TestDownsampler, subject1 -/
example : dsAfter b!"string,host=host\\ 0 value=\"one\"\nint,host=host\\ 0 xyz=111i\nstring,host=host\\ 0 value=\"two\"\nstring,host=host\\ 0 value=\"three\"\nint,host=host\\ 0 xyz=333i\ntoo_new_timestamp 9223372036854775807\ninvalid x\n"
    = .ok (makeLine b!"string,host=host\\ 0 value=\"three\"" 1 ++ makeLine b!"int,host=host\\ 0 xyz=222i" 1, ⟨1, 1, 1, 1, 0⟩) := by
  decide +kernel

end Spout.Conformance
