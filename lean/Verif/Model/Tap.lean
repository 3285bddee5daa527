import Verif.Go

/-! # Model of `cmd/influx-spout-tap` -/

namespace Spout

/-- `'%'`. cmd/influx-spout-tap/influx-spout-tap.go:60, 63. -/
abbrev PCT : Byte := 37

/-- `fmt.Printf(format)` without operands (cmd/influx-spout-tap/influx-spout-tap.go:60, 63): an
arbitrary function with the documented behaviour of package fmt: text without `%` is
printed as it is, `%%` prints one `%`, and a verb without operand, here `%d`, prints
`%!d(MISSING)`. -/
structure Printf where
  run : Bytes → Bytes
  plain : ∀ s, PCT ∉ s → run s = s
  percent : ∀ s t, PCT ∉ s → run (s ++ [PCT, PCT] ++ t) = s ++ [PCT] ++ run t
  missing : ∀ s t, PCT ∉ s → run (s ++ b!"%d" ++ t) = s ++ b!"%!d(MISSING)" ++ run t

/-- `process`, cmd/influx-spout-tap/influx-spout-tap.go:56-66: what is printed for a message.
`r` is the regular expression given with `-e`, if any (45-47), as an arbitrary predicate. -/
def tapProcess (p : Printf) (r : Option (Bytes → Bool)) (data : Bytes) : Bytes :=
  (splitAfterNL data).flatMap fun line =>                                  -- 57
    match r with
    | some m => if m line then p.run line else []                          -- 58-61
    | none => p.run line                                                   -- 62-64

/-- The output for the messages received, in order (48-50; a subscription's callback is
called for one message after the other). cmd/influx-spout-tap/influx-spout-tap.go:48-50. -/
def tapRun (p : Printf) (r : Option (Bytes → Bool)) (msgs : List Bytes) : Bytes :=
  msgs.flatMap (tapProcess p r)

end Spout
