import Verif.Go

/-! # Specification: the parameters in a URL

How the server reads the query string of a URL (RFC 3986 section 3.4 and the form
encoding used by net/url: pairs separated by `&` or `;`, `+` for a space, `%XX`
for a byte). -/

namespace Spout.Spec

/-- The value of a hexadecimal digit. -/
def hexVal (c : Byte) : Option Byte :=
  if 48 ≤ c ∧ c ≤ 57 then some (c - 48)
  else if 65 ≤ c ∧ c ≤ 70 then some (c - 55)
  else if 97 ≤ c ∧ c ≤ 102 then some (c - 87)
  else none

/-- What a key or value stands for; `none` if a `%` is not followed by two hexadecimal digits. -/
def unescapeQuery : Bytes → Option Bytes
  | [] => some []
  | c :: s =>
    if c = 37 then                                        -- '%'
      match s with
      | a :: b :: t =>
        match hexVal a, hexVal b, unescapeQuery t with
        | some x, some y, some r => some ((x * 16 + y) :: r)
        | _, _, _ => none
      | _ => none
    else
      match unescapeQuery s with
      | some r => some ((if c = 43 then 32 else c) :: r)  -- '+' is a space
      | none => none

/-- The text before the first byte satisfying `p`. -/
def upTo (p : Byte → Bool) (s : Bytes) : Bytes := s.takeWhile fun c => !p c

/-- The text after the first byte satisfying `p`; `none` if there is none. -/
def afterFirst (p : Byte → Bool) : Bytes → Option Bytes
  | [] => none
  | c :: s => if p c then some s else afterFirst p s

/-- The pieces between the bytes satisfying `p`. -/
def splitAtAny (p : Byte → Bool) : Bytes → List Bytes
  | [] => [[]]
  | c :: s =>
    if p c then [] :: splitAtAny p s
    else match splitAtAny p s with
      | x :: xs => (c :: x) :: xs
      | [] => [[c]]

/-- The query string of a URL: from the first `?` to the fragment (`#`). -/
def queryOf (url : Bytes) : Option Bytes := afterFirst (· == 63) (upTo (· == 35) url)

/-- The value of the first parameter with the given name. -/
def firstParam (name : Bytes) : List Bytes → Option Bytes
  | [] => none
  | pair :: rest =>
    match unescapeQuery (upTo (· == 61) pair), unescapeQuery ((afterFirst (· == 61) pair).getD []) with
    | some k, some v => if k = name then some v else firstParam name rest
    | _, _ => firstParam name rest

/-- The value of a parameter of a URL, `none` if the URL does not have it. -/
def param (name url : Bytes) : Option Bytes :=
  (queryOf url).bind fun q => firstParam name (splitAtAny (fun c => c == 38 || c == 59) q)

example : param b!"db" b!"http://h:1/write?p=a%20b&db=x+y%2f#db=z" = some b!"x y/" := by decide +kernel
example : param b!"db" b!"http://h:1/write?db=%zz&DB=1;db=2" = some b!"2" := by decide +kernel
example : param b!"db" b!"http://h:1/write#?db=1" = none := by decide +kernel

end Spout.Spec
