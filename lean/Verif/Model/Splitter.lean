import Verif.Go

/-! # Model of package `batchsplitter` -/

namespace Spout

/-- `BatchSplitter`, batchsplitter/batch_splitter.go:38-42.  `chunkSize` is a
`Nat`: `New` (28-33) converts a `datasize.ByteSize`; sizes ≥ 2^63, which Go
would turn negative, are not modelled. -/
structure Splitter where
  buf : Bytes
  chunkSize : Nat
  out : Bytes
  deriving DecidableEq, Repr

/-- `New`, batchsplitter/batch_splitter.go:28-33. -/
def Splitter.new (buf : Bytes) (chunkSize : Nat) : Splitter :=
  { buf := buf, chunkSize := chunkSize, out := [] }

/-- The backwards search, batchsplitter/batch_splitter.go:58-65.  Called with
`i = chunkSize`; returns the index of the newline found, scanning `i`, `i-1`, … , `0`. -/
def Splitter.scanBack (buf : Bytes) : Nat → Go (Option Nat)
  | 0 => do
    let c ← idx buf 0
    if c = NL then return some 0 else return none
  | i + 1 => do
    let c ← idx buf (i + 1)
    if c = NL then return some (i + 1) else Splitter.scanBack buf i

/-- `Next`, batchsplitter/batch_splitter.go:46-73. -/
def Splitter.next (s : Splitter) : Go (Bool × Splitter) :=
  if s.buf.length = 0 then                                  -- 47-50
    .ok (false, { s with out := [] })
  else if s.buf.length ≤ s.chunkSize then                   -- 51-55
    .ok (true, { s with out := s.buf, buf := [] })
  else do
    match ← Splitter.scanBack s.buf s.chunkSize with        -- 58-65
    | some i =>
      let o ← sliceTo s.buf (i + 1)
      let b ← sliceFrom s.buf (i + 1)
      return (true, { s with out := o, buf := b })
    | none =>                                               -- 70-72
      let o ← sliceTo s.buf s.chunkSize
      let b ← sliceFrom s.buf s.chunkSize
      return (true, { s with out := o, buf := b })

/-- `Chunk`, batchsplitter/batch_splitter.go:77-79. -/
def Splitter.chunk (s : Splitter) : Bytes := s.out

/-- The loop `for s.Next() { use(s.Chunk()) }` of every caller
(writer/writer.go:190-206, listener/listener.go:403-409,
downsampler/downsampler.go:170-176), collecting the chunks.  With
`chunkSize = 0` the Go loop need not terminate, hence the explicit bound
`fuel` on the number of `Next` calls; `none` means that `Next` was still
returning true after `fuel` calls. -/
def Splitter.collect : Nat → Splitter → Go (Option (List Bytes))
  | 0, _ => .ok none
  | fuel + 1, s => do
    let (more, s') ← s.next
    if more then
      match ← Splitter.collect fuel s' with
      | none => return none
      | some cs => return some (s'.chunk :: cs)
    else return some []

/-- The callers' loop run to exhaustion.  `C01_split_conserves_bytes` shows that for
a positive chunk size `len(buf)+1` calls of `Next` suffice; a loop still running
after them is reported as `panic`. writer/writer.go:190-206, listener/listener.go:403-409, downsampler/downsampler.go:170-176. -/
def splitAll (buf : Bytes) (chunkSize : Nat) : Go (List Bytes) := do
  match ← Splitter.collect (buf.length + 1) (Splitter.new buf chunkSize) with
  | some cs => return cs
  | none => .panic

end Spout
