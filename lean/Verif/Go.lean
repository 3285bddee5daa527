/-!
# Run-time vocabulary of the model

This file does not model any code of `/repo`.  It fixes how Go run-time notions
are represented: bytes, slices, panics, fixed width integers, and the standard
library functions `bytes.Split`, `bytes.SplitAfter`, `bytes.Compare`,
`strconv.AppendInt`.
-/

namespace Spout

/-- A Go `byte`. -/
abbrev Byte := UInt8

/-- A Go `[]byte`, by value.  `nil` and the empty slice are both `[]`. -/
abbrev Bytes := List UInt8

open Lean in
/-- Byte-string literal: `b!"abc"` is the list of UTF-8 bytes of the string. -/
macro:max "b!" s:str : term => do
  let bs := s.getString.toUTF8.toList
  let elems ← bs.mapM fun b => `(($(quote b.toNat) : UInt8))
  `(([$(elems.toArray),*] : List UInt8))

/-- `'\n'` -/
abbrev NL : Byte := 10
/-- `' '` -/
abbrev SP : Byte := 32
/-- `'"'` -/
abbrev DQ : Byte := 34
/-- `','` -/
abbrev COMMA : Byte := 44
/-- `'-'` -/
abbrev MINUS : Byte := 45
/-- `'='` -/
abbrev EQ : Byte := 61
/-- `'\\'` -/
abbrev BS : Byte := 92
/-- `'{'` -/
abbrev LBRACE : Byte := 123
/-- `'}'` -/
abbrev RBRACE : Byte := 125

/-! ## Panics -/

/-- Result of a Go computation that may hit a run-time panic (index out of
range, slice bounds out of range).  Ordinary Go `error` results are values
inside `ok`. -/
inductive Go (α : Type u) where
  | ok (a : α)
  | panic
  deriving DecidableEq, Repr

deriving instance DecidableEq for Except

namespace Go

@[inline] protected def bind (x : Go α) (f : α → Go β) : Go β :=
  match x with
  | .ok a => f a
  | .panic => .panic

instance : Monad Go where
  pure := .ok
  bind := Go.bind

@[simp] theorem ok_bind (a : α) (f : α → Go β) : (Go.ok a >>= f) = f a := rfl
@[simp] theorem panic_bind (f : α → Go β) : ((Go.panic : Go α) >>= f) = .panic := rfl
@[simp] theorem pure_eq (a : α) : (pure a : Go α) = .ok a := rfl

/-- "This computation does not panic". -/
def Safe (x : Go α) : Prop := ∃ a, x = .ok a

@[simp] theorem safe_ok (a : α) : Safe (Go.ok a) := ⟨a, rfl⟩
@[simp] theorem not_safe_panic : ¬ Safe (Go.panic : Go α) := by rintro ⟨a, h⟩; cases h

end Go

/-- Go index expression `s[i]`: panics when out of range. -/
def idx (s : Bytes) (i : Nat) : Go Byte :=
  match s[i]? with
  | some b => .ok b
  | none => .panic

/-- Go slice expression `s[lo:hi]`; panics when `lo > hi` or `hi > len(s)`.
(Go checks `hi` against the capacity; being stricter only makes the
no-panic theorems stronger, and in every modelled use `hi ≤ len(s)` is proved
where it matters.) -/
def slice (s : Bytes) (lo hi : Nat) : Go Bytes :=
  if lo ≤ hi ∧ hi ≤ s.length then .ok ((s.take hi).drop lo) else .panic

/-- Go slice expression `s[lo:]`. -/
def sliceFrom (s : Bytes) (lo : Nat) : Go Bytes :=
  if lo ≤ s.length then .ok (s.drop lo) else .panic

/-- Go slice expression `s[:hi]`. -/
def sliceTo (s : Bytes) (hi : Nat) : Go Bytes :=
  if hi ≤ s.length then .ok (s.take hi) else .panic

theorem idx_ok {s : Bytes} {i : Nat} (h : i < s.length) : idx s i = .ok s[i] := by
  simp [idx, h]

theorem slice_ok {s : Bytes} {lo hi : Nat} (h : lo ≤ hi) (h2 : hi ≤ s.length) :
    slice s lo hi = .ok ((s.take hi).drop lo) := by simp [slice, h, h2]

theorem sliceFrom_ok {s : Bytes} {lo : Nat} (h : lo ≤ s.length) :
    sliceFrom s lo = .ok (s.drop lo) := by simp [sliceFrom, h]

theorem sliceTo_ok {s : Bytes} {hi : Nat} (h : hi ≤ s.length) :
    sliceTo s hi = .ok (s.take hi) := by simp [sliceTo, h]

/-! ## Fixed width integers -/

/-- Two's complement wrap-around to `int64`. -/
def wrap64 (x : Int) : Int :=
  (x + 9223372036854775808) % 18446744073709551616 - 9223372036854775808

/-- The value is representable as `int64`. -/
def InInt64 (x : Int) : Prop := -9223372036854775808 ≤ x ∧ x ≤ 9223372036854775807

instance (x : Int) : Decidable (InInt64 x) := by unfold InInt64; infer_instance

/-- Wrap-around to `uint64`. -/
def wrapU64 (x : Nat) : Nat := x % 18446744073709551616

theorem wrap64_of_inInt64 {x : Int} (h : InInt64 x) : wrap64 x = x := by
  unfold InInt64 at h; unfold wrap64; omega

theorem inInt64_wrap64 (x : Int) : InInt64 (wrap64 x) := by
  unfold InInt64 wrap64; omega

/-! ## Standard library functions -/

/-- `bytes.SplitAfter(s, "\n")`: cut after every newline.  The last element is
what follows the final newline (possibly empty); the empty slice gives one
empty element. -/
def splitAfterNL : Bytes → List Bytes
  | [] => [[]]
  | c :: cs =>
    if c = NL then [c] :: splitAfterNL cs
    else match splitAfterNL cs with
      | [] => [[c]]          -- unreachable: the result is never empty
      | l :: ls => (c :: l) :: ls

/-- `bytes.Split(s, "\n")`: like `splitAfterNL` without the newlines. -/
def splitNL : Bytes → List Bytes
  | [] => [[]]
  | c :: cs =>
    if c = NL then [] :: splitNL cs
    else match splitNL cs with
      | [] => [[c]]          -- unreachable
      | l :: ls => (c :: l) :: ls

/-- `bytes.Compare(a, b) < 0`: lexicographic order on bytes (also the order of
Go strings). -/
def bytesLt : Bytes → Bytes → Bool
  | _, [] => false
  | [], _ :: _ => true
  | a :: as, b :: bs => if a < b then true else if b < a then false else bytesLt as bs

/-- Decimal digits of a natural number, most significant first. -/
def natDigits (n : Nat) : Bytes :=
  if n < 10 then [UInt8.ofNat (48 + n)]
  else natDigits (n / 10) ++ [UInt8.ofNat (48 + n % 10)]
termination_by n

/-- `strconv.AppendInt(nil, n, 10)` and `fmt` verb `%d`. -/
def itoa (n : Int) : Bytes :=
  if n < 0 then MINUS :: natDigits n.natAbs else natDigits n.natAbs

end Spout
