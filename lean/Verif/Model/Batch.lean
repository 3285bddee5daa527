import Verif.Go

/-! # Model of package `batch`

Time is an `Int` of nanoseconds.  `clock.Now()`/`clock.Since` readings are
arguments.  `time.Since` saturates outside ±292 years; that is not modelled. -/

namespace Spout

/-- `maxReadSize`, batch/batch.go:23. -/
def maxReadSize : Nat := 65536

/-- `Batch`, batch/batch.go:45-49.  `buf` holds the bytes in use
(`b.buf[0:len]`), `cap` is `cap(b.buf)`. -/
structure Batch where
  buf : Bytes
  cap : Nat
  writes : Nat
  created : Int
  deriving DecidableEq, Repr

namespace Batch

/-- `New`, batch/batch.go:27-32. -/
def new (capacity : Nat) (now : Int) : Batch := ⟨[], capacity, 0, now⟩

/-- `Size`, batch/batch.go:52-54. -/
def size (b : Batch) : Nat := b.buf.length

/-- `Remaining`, batch/batch.go:57-59. -/
def remaining (b : Batch) : Nat := b.cap - b.buf.length

/-- `Bytes` and `CopyBytes`, batch/batch.go:63-75. -/
def bytes (b : Batch) : Bytes := b.buf

/-- `Age`, batch/batch.go:85-90. -/
def age (b : Batch) (now : Int) : Int := if b.writes ≤ 0 then 0 else now - b.created

/-- `Reset`, batch/batch.go:93-97. -/
def reset (b : Batch) (now : Int) : Batch := { b with buf := [], writes := 0, created := now }

/-- `countWrite`, batch/batch.go:184-190. -/
def countWrite (b : Batch) (now : Int) : Batch :=
  { b with created := if b.writes = 0 then now else b.created, writes := b.writes + 1 }

/-- `grow`, batch/batch.go:153-162.  `copy(newBuf, b.buf)` copies
`min(newSize, len)` bytes and `newBuf[:len(b.buf)]` panics if that exceeds the
new capacity. -/
def grow (b : Batch) : Go Batch :=
  let newSize := if b.cap * 2 < maxReadSize then b.cap + maxReadSize else b.cap * 2
  if b.buf.length ≤ newSize then .ok { b with cap := newSize } else .panic

/-- `growIfLow`, batch/batch.go:143-147. -/
def growIfLow (b : Batch) : Go Batch :=
  if b.remaining < maxReadSize then b.grow else .ok b

/-- The loop of `appendImpl`, batch/batch.go:175-177; running out of `fuel` would be an
endless loop and is reported as a panic. -/
def growFor (b : Batch) (more : Nat) : Nat → Go Batch
  | 0 => .panic
  | fuel + 1 => if b.remaining < more then do (← b.grow).growFor more fuel else .ok b

/-- `appendImpl`, batch/batch.go:173-182. -/
def appendImpl (b : Batch) (more : Bytes) : Go Batch := do
  let b ← b.growFor more.length (more.length + 1)
  if b.buf.length + more.length ≤ b.cap then           -- the re-slice at 180
    return { b with buf := b.buf ++ more }
  else .panic

/-- `Append`, batch/batch.go:100-103. -/
def append (b : Batch) (more : Bytes) (now : Int) : Go Batch := (b.countWrite now).appendImpl more

/-- `EnsureNewline`, batch/batch.go:166-171. -/
def ensureNewline (b : Batch) : Go Batch :=
  match b.buf.getLast? with
  | none => .ok b
  | some c => if c ≠ NL then b.appendImpl [NL] else .ok b

/-- `ReadOnceFrom`, batch/batch.go:130-141, from a socket whose next datagram is
`data` (empty: nothing was read, e.g. on a timeout): at most the free space is
filled and the rest of the datagram is lost.  Returns the number of bytes read. -/
def readOnceFrom (b : Batch) (data : Bytes) (now : Int) : Go (Batch × Nat) := do
  let b ← b.growIfLow
  let got := data.take b.remaining
  if got.length > 0 then
    return (({ b with buf := b.buf ++ got }).countWrite now, got.length)
  else return (b, 0)

/-- An `io.Reader` as a script: the successive results of `Read` when offered
enough room, and the data (possibly none) returned together with the final
error.  When offered less room it hands out the piece in parts. The `io.Reader` of batch/batch.go:107, 111, 130, 132 and of listener/listener.go:289. -/
structure Reader where
  pieces : List Bytes
  last : Bytes
  deriving DecidableEq, Repr

/-- One `Read(p)` with `len(p) = room`; the Bool says whether an error (EOF or
other) was returned. batch/batch.go:111, 132. -/
def Reader.read (r : Reader) (room : Nat) : Bytes × Bool × Reader :=
  match r.pieces with
  | [] => if r.last.length ≤ room then (r.last, true, ⟨[], []⟩)
          else (r.last.take room, false, ⟨[], r.last.drop room⟩)
  | p :: ps => if p.length ≤ room then (p, false, ⟨ps, r.last⟩)
          else (p.take room, false, ⟨p.drop room :: ps, r.last⟩)

/-- The loop of `ReadFrom`, batch/batch.go:109-126.  `now` is the clock reading
when the reader has ended. -/
def readLoop (now : Int) : (fuel : Nat) → Batch → Reader → (total : Nat) → Go (Batch × Nat)
  | 0, _, _, _ => .panic
  | fuel + 1, b, r, total => do
    let b ← b.growIfLow
    let (data, err, r) := r.read b.remaining
    let b := { b with buf := b.buf ++ data }
    let total := total + data.length
    if err then
      return (if total > 0 then b.countWrite now else b, total)
    else readLoop now fuel b r total

/-- Bound on the number of reads; `Lemmas/Batch.lean: readLoop_spec` proves that it suffices. The loop of batch/batch.go:109-126. -/
def Reader.steps (r : Reader) : Nat := r.pieces.flatten.length + r.pieces.length + r.last.length + 1

/-- `ReadFrom`, batch/batch.go:107-127. -/
def readFrom (b : Batch) (r : Reader) (now : Int) : Go (Batch × Nat) :=
  readLoop now r.steps b r 0

end Batch
end Spout
