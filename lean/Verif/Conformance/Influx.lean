import Verif.Model.Influx
import Verif.Model.Convert
import Verif.Model.Filter

/-! # The model runs the project's own tests: influx, convert, filter timestamps

Every input of the unit tests of /repo is given to the model and must give the
expected output of the test.  These are tests of the model (evidence that it
models the code), not proofs of properties. -/

namespace Spout.Conformance

/-- influx/unescape_small_test.go:27-72 -/
example : ([
    (b!"", b!""),
    (b!" ", b!" "),
    (b!",", b!","),
    (b!"\"", b!"\""),
    (b!"=", b!"="),
    (b!"h", b!"h"),
    (b!"日", b!"日"),
    (b!"hello", b!"hello"),
    (b!"日本語", b!"日本語"),
    (b!"\\,", b!","),
    (b!"\\\"", b!"\""),
    (b!"\\ ", b!" "),
    (b!"\\=", b!"="),
    (b!"\\,x", b!",x"),
    (b!"\\\"x", b!"\"x"),
    (b!"\\ x", b!" x"),
    (b!"\\=x", b!"=x"),
    (b!"x\\,", b!"x,"),
    (b!"x\\\"", b!"x\""),
    (b!"x\\ ", b!"x "),
    (b!"x\\=", b!"x="),
    (b!"\\,\\\"\\ \\=", b!",\" ="),
    (b!"\\,日\\\"本\\ 語\\=", b!",日\"本 語="),
    (b!"hell\\o", b!"hell\\o"),
    (b!"\\hello", b!"\\hello"),
    (b!"\\日e\\l\\lo", b!"\\日e\\l\\lo"),
    (b!"he\\\\llo", b!"he\\\\llo"),
    (b!"\\", b!"\\"),
    (b!"\\\\", b!"\\\\"),
    (b!"h\\", b!"h\\"),
    (b!"日\\", b!"日\\"),
    (b!"hello\\", b!"hello\\")].all fun p => decide (unescape p.1 = .ok p.2)) = true := by decide +kernel

/-- influx/escape_small_test.go:25-57 -/
example : ([
    (b!"", b!",", b!""),
    (b!"h", b!",", b!"h"),
    (b!"日", b!",", b!"日"),
    (b!"hello", b!",", b!"hello"),
    (b!"日本語", b!",", b!"日本語"),
    (b!" ", b!" ,\"=", b!"\\ "),
    (b!",", b!" ,\"=", b!"\\,"),
    (b!"\"", b!" ,\"=", b!"\\\""),
    (b!"=", b!" ,\"=", b!"\\="),
    (b!"=", b!",", b!"="),
    (b!",x", b!" ,\"=", b!"\\,x"),
    (b!"x,", b!" ,\"=", b!"x\\,"),
    (b!"\"x\"", b!" ,\"=", b!"\\\"x\\\""),
    (b!" ,\"=", b!" ,\"=", b!"\\ \\,\\\"\\="),
    (b!"\"stuff, =things\"", b!" ,\"=", b!"\\\"stuff\\,\\ \\=things\\\""),
    (b!",日\"本 語=", b!" ,\"=", b!"\\,日\\\"本\\ 語\\=")].all fun p => decide (escape p.1 p.2.1 = p.2.2)) = true := by decide +kernel

/-- influx/escape_small_test.go:59-76 -/
example : ([
    (b!"", b!"\"\""),
    (b!"h", b!"\"h\""),
    (b!"foo bar", b!"\"foo bar\""),
    (b!"foo \"bar\"", b!"\"foo \\\"bar\\\"\""),
    (b!"\"", b!"\"\\\"\""),
    (b!"\"\"", b!"\"\\\"\\\"\"")].all fun p => decide (escapeQuotedString p.1 = p.2)) = true := by decide +kernel

/-- influx/token_small_test.go:26-51 -/
example : ([
    (b!"", b!" ", b!"", b!""),
    (b!"a", b!" ", b!"a", b!""),
    (b!"日", b!" ", b!"日", b!""),
    (b!"hello", b!" ", b!"hello", b!""),
    (b!"日本語", b!" ", b!"日本語", b!""),
    (b!" ", b!", ", b!"", b!" "),
    (b!",", b!", ", b!"", b!","),
    (b!"h world", b!", ", b!"h", b!" world"),
    (b!"h,world", b!", ", b!"h", b!",world"),
    (b!"hello world", b!", ", b!"hello", b!" world"),
    (b!"hello,world", b!", ", b!"hello", b!",world"),
    (b!"hello\\ world more", b!", ", b!"hello world", b!" more"),
    (b!"hello\\,world,more", b!", ", b!"hello,world", b!",more"),
    (b!"hello\\ 日本語 more", b!", ", b!"hello 日本語", b!" more"),
    (b!"hello\\,日本語,more", b!", ", b!"hello,日本語", b!",more"),
    (b!"\\ ", b!" ", b!" ", b!""),
    (b!"\\", b!" ", b!"\\", b!""),
    (b!"hello\\", b!" ", b!"hello\\", b!"")].all fun p => decide (tokenU p.1 p.2.1 = .ok p.2.2)) = true := by decide +kernel

/-- influx/token_small_test.go:53-63 -/
example : ([
    (b!"hello\\ world more", b!", ", b!"hello\\ world", b!" more"),
    (b!"hello\\,world,more", b!", ", b!"hello\\,world", b!",more"),
    (b!"\\ ", b!" ", b!"\\ ", b!"")].all fun p => decide (tokenEscaped p.1 p.2.1 = .ok p.2.2)) = true := by decide +kernel

/-- influx/token_small_test.go:65-88 -/
example : ([
    (b!"\"\"", b!"", b!""),
    (b!"\"\" foo", b!"", b!" foo"),
    (b!"\"a\"", b!"a", b!""),
    (b!"\"hello\"", b!"hello", b!""),
    (b!"\"hello\" foo", b!"hello", b!" foo"),
    (b!"\"he\\\"llo\" foo", b!"he\"llo", b!" foo"),
    (b!"\"\\\"\"", b!"\"", b!""),
    (b!"\"he\\\"llo\" foo", b!"he\"llo", b!" foo"),
    (b!"\"he\\llo\" foo", b!"he\\llo", b!" foo")].all fun p => decide (quotedString p.1 = .ok (.ok p.2))) = true := by decide +kernel

/-- influx/token_small_test.go:89-94 -/
example : ([
    (b!"", QErr.tooShort),
    (b!"\"", QErr.tooShort),
    (b!"abc", QErr.firstChar),
    (b!"\"foo", QErr.missingTrailing),
    (b!"\"foo\\\"", QErr.missingTrailing)].all fun p => decide (quotedString p.1 = .ok (.error p.2))) = true := by decide +kernel

/-- influx/timestamps_small_test.go: TestExtractTimestamp -/
example : ([
    (b!"weather temp=99 12345", (12345 : Int), (16 : Int)),
    (b!"weather temp=99 12345\n", (12345 : Int), (16 : Int)),
    (b!"weather,city=paris temp=60 12345", (12345 : Int), (27 : Int)),
    (b!"weather,city=paris temp=60,humidity=100 12345", (12345 : Int), (40 : Int)),
    (b!"weather,city=paris temp=60,humidity=100 12345\n", (12345 : Int), (40 : Int)),
    (b!"weather temp=99 -12345", (-12345 : Int), (16 : Int)),
    (b!"", (-1 : Int), (-1 : Int)),
    (b!" ", (-1 : Int), (-1 : Int)),
    (b!"weather temp=99", (-1 : Int), (-1 : Int)),
    (b!"weather,city=paris temp=60", (-1 : Int), (-1 : Int)),
    (b!"weather,city=paris temp=99,humidity=100", (-1 : Int), (-1 : Int)),
    (b!"weather temp=99 12345 ", (-1 : Int), (-1 : Int)),
    (b!"weather temp=99 xxxxx", (-1 : Int), (-1 : Int)),
    (b!"weather temp=99 15x07", (-1 : Int), (-1 : Int)),
    (b!"weather temp=99 00000000000000000001", (-1 : Int), (-1 : Int)),
    (b!"12345", (-1 : Int), (-1 : Int))].all fun p => decide (extractTimestamp p.1 = .ok p.2)) = true := by decide +kernel

/-- influx/timestamps_small_test.go: TestExtractNanos -/
example : ([
    (b!"weather temp=99 865483382000000001", (865483382000000001 : Int), (16 : Int)),
    (b!"weather temp=99 865483382000000001\n", (865483382000000001 : Int), (16 : Int)),
    (b!"weather,city=paris temp=60 865483382000000001", (865483382000000001 : Int), (27 : Int)),
    (b!"weather,city=paris temp=60,humidity=100 865483382000000001", (865483382000000001 : Int), (40 : Int)),
    (b!"weather,city=paris temp=60,humidity=100 865483382000000001\n", (865483382000000001 : Int), (40 : Int)),
    (b!"weather temp=99 -865483382000000001", (-865483382000000001 : Int), (16 : Int)),
    (b!"", (-1 : Int), (-1 : Int)),
    (b!" ", (-1 : Int), (-1 : Int)),
    (b!"weather temp=99", (-1 : Int), (-1 : Int)),
    (b!"weather,city=paris temp=60", (-1 : Int), (-1 : Int)),
    (b!"weather,city=paris temp=99,humidity=100", (-1 : Int), (-1 : Int)),
    (b!"weather temp=99 865483382000000001 ", (-1 : Int), (-1 : Int)),
    (b!"weather temp=99 xxxxxxxxxxxxxxxxxxx", (-1 : Int), (-1 : Int)),
    (b!"weather temp=99 152076148x803180202", (-1 : Int), (-1 : Int)),
    (b!"weather temp=99 11520761485803180202", (-1 : Int), (-1 : Int)),
    (b!"865483382000000001", (-1 : Int), (-1 : Int))].all fun p => decide (extractNanos p.1 = .ok p.2)) = true := by decide +kernel

/-- influx/timestamps_small_test.go: TestSafeCalcTime -/
example : ([
    ((946730096789012345 : Int), b!"", (946730096789012345 : Int)),
    ((946730096789012345 : Int), b!"n", (946730096789012345 : Int)),
    ((946730096789012 : Int), b!"u", (946730096789012000 : Int)),
    ((946730096789 : Int), b!"ms", (946730096789000000 : Int)),
    ((946730096 : Int), b!"s", (946730096000000000 : Int)),
    ((15778834 : Int), b!"m", (946730040000000000 : Int)),
    ((262980 : Int), b!"h", (946728000000000000 : Int))].all fun p => decide (safeCalcTime p.1 p.2.1 = some p.2.2)) = true := by decide +kernel

/-- influx/timestamps_small_test.go: TestSafeCalcTimeOutOfRange -/
example : safeCalcTime (-9223372036854775808) b!"" = none ∧ safeCalcTime (-9223372036854775808 + 1) b!"" = none ∧
    safeCalcTime 9223372036854775807 b!"" = none ∧
    (safeCalcTime (-9223372036854775808 + 2) b!"").isSome ∧ (safeCalcTime (9223372036854775807 - 1) b!"").isSome := by
  decide +kernel

/-- influx/tags_small_test.go:26-87: TestParseTags -/
example : ([
    (b!"", (⟨b!"", [], b!""⟩ : Parsed)),
    (b!"foo", (⟨b!"foo", [], b!""⟩ : Parsed)),
    (b!"foo x=22", (⟨b!"foo", [], b!"x=22"⟩ : Parsed)),
    (b!"foo x=22 y=true", (⟨b!"foo", [], b!"x=22 y=true"⟩ : Parsed)),
    (b!"foo,host=s1 x=22", (⟨b!"foo", [⟨b!"host", b!"s1"⟩], b!"x=22"⟩ : Parsed)),
    (b!"foo,host=s1,dc=nyc abc=22i xyz=3.141", (⟨b!"foo", [⟨b!"host", b!"s1"⟩, ⟨b!"dc", b!"nyc"⟩], b!"abc=22i xyz=3.141"⟩ : Parsed)),
    (b!"foo,host=s1,dc=nyc", (⟨b!"foo", [⟨b!"host", b!"s1"⟩, ⟨b!"dc", b!"nyc"⟩], b!""⟩ : Parsed)),
    (b!"fo\\,o,h\\=ost=s\\,1,\\,dc=\\ nyc abc=22i xyz=3.141", (⟨b!"fo,o", [⟨b!"h=ost", b!"s,1"⟩, ⟨b!",dc", b!" nyc"⟩], b!"abc=22i xyz=3.141"⟩ : Parsed))].all fun p => decide (parseTags p.1 = .ok (some p.2))) = true := by decide +kernel

/-- influx/tags_small_test.go:88-93 -/
example : ([
    b!"foo,dc",
    b!"foo,dc x=22",
    b!"foo,dc,host=s1 x=22",
    b!"foo,host=s1,dc x=22",
    b!"foo,dc="].all fun p => decide (parseTags p = .ok none)) = true := by decide +kernel

/-- influx/tags_small_test.go: TestTagSetSorting -/
example : isSortedTags [⟨b!"bar", b!"3"⟩, ⟨b!"foo", b!"0"⟩, ⟨b!"longer", b!"1"⟩, ⟨b!"zeal", b!"2"⟩] = true ∧
    isSortedTags [⟨b!"foo", b!"0"⟩, ⟨b!"zeal", b!"2"⟩, ⟨b!"longer", b!"1"⟩, ⟨b!"bar", b!"3"⟩] = false := by decide +kernel

def subsetTags : List Tag := [⟨b!"foo", b!"0"⟩, ⟨b!"bar", b!"1"⟩, ⟨b!"sne", b!"2"⟩]

/-- influx/tags_small_test.go: TestSubsetOf -/
example :
    subsetOf subsetTags [⟨b!"sne", b!"2"⟩, ⟨b!"bar", b!"1"⟩, ⟨b!"foo", b!"0"⟩] = true ∧
    subsetOf subsetTags [⟨b!"sne", b!"2"⟩, ⟨b!"a", b!"3"⟩, ⟨b!"bar", b!"1"⟩, ⟨b!"foo", b!"0"⟩, ⟨b!"zzzzz", b!"4"⟩] = true ∧
    subsetOf subsetTags [⟨b!"sne", b!"2"⟩, ⟨b!"foo", b!"0"⟩] = false ∧
    subsetOf subsetTags [⟨b!"q", b!"0"⟩] = false ∧
    subsetOf subsetTags [] = false ∧
    subsetOf [] [⟨b!"foo", b!"bar"⟩] = true := by decide +kernel

/-- influx/tags_small_test.go: TestBytes -/
example : ([
    ([⟨b!"foo", b!"bar"⟩], b!"foo=bar"),
    ([⟨b!"foo", b!"0"⟩, ⟨b!"bar", b!"1"⟩, ⟨b!"sne", b!"2"⟩], b!"foo=0,bar=1,sne=2"),
    ([⟨b!"foo=bar", b!"0"⟩, ⟨b!"ba,r", b!"1"⟩, ⟨b!"host", b!"a server"⟩], b!"foo\\=bar=0,ba\\,r=1,host=a\\ server"),
    ([], b!"")].all fun p => decide (tagBytes p.1 = p.2)) = true := by decide +kernel

/-- convert/convert_small_test.go -/
example : ([
    (b!"0", (0 : Int)),
    (b!"-0", (0 : Int)),
    (b!"1", (1 : Int)),
    (b!"-1", (-1 : Int)),
    (b!"9", (9 : Int)),
    (b!"10", (10 : Int)),
    (b!"99", (99 : Int)),
    (b!"-99", (-99 : Int)),
    (b!"101", (101 : Int)),
    (b!"-101", (-101 : Int)),
    (b!"9223372036854775807", (9223372036854775807 : Int)),
    (b!"-9223372036854775808", (-9223372036854775808 : Int))].all fun p => decide (toInt p.1 = .ok p.2)) = true := by decide +kernel

/-- convert/convert_small_test.go -/
example : ([
    b!"",
    b!"x",
    b!"-",
    b!"+2",
    b!"9223372036854775808",
    b!"-9223372036854775809"].all fun p => decide ((toInt p).toOption = none)) = true := by decide +kernel

/-- filter/timestamp_small_test.go -/
example : ([
    (b!"", (77 : Int)),
    (b!"weather,city=paris temp=60", 77),
    (b!"weather temp=99 865483382000000001", 865483382000000001),
    (b!"weather temp=99 865483382000000001\n", 865483382000000001),
    (b!"weather,city=paris temp=60,humidity=100 865483382000000001", 865483382000000001),
    (b!"weather,city=paris temp=60,humidity=100 865483382000000001\n", 865483382000000001)].all fun p => decide (filterTimestamp p.1 77 = .ok p.2)) = true := by decide +kernel

end Spout.Conformance
