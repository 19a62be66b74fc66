import Verif.Http.Json
/-!
# Percent-encoding

Model of `HttpClient::escape` and `HttpClient::unescape` of /repo/src/trident/utils/httpclient.cpp.  A text is the list of its bytes.
-/
namespace Trident.Http

/-- `isxdigit`. -/
def isXDigit (c : Nat) : Bool := (48 ≤ c && c ≤ 57) || (65 ≤ c && c ≤ 70) || (97 ≤ c && c ≤ 102)

/-- `isalnum` in the locale "C".  For the bytes from 128, which are negative as `char`, the C library says no. -/
def isAlnum (c : Nat) : Bool := (48 ≤ c && c ≤ 57) || (65 ≤ c && c ≤ 90) || (97 ≤ c && c ≤ 122)

/-- The value of a digit (httpclient.cpp:111-116, 117-122). -/
def digitOf (a : Nat) : Nat :=
  let a := if 97 ≤ a then a - 32 else a
  if 65 ≤ a then a - 55 else a - 48

/-- `unescape` (httpclient.cpp:103-133).  The text is read as a C string: it ends at its first byte 0. -/
def unescape : Text → Text
  | [] => []
  | c :: a :: b :: t =>
    if c = 0 then []
    else if c = 37 ∧ a ≠ 0 ∧ b ≠ 0 ∧ isXDigit a = true ∧ isXDigit b = true then (16 * digitOf a + digitOf b) % 256 :: unescape t
    else (if c = 43 then 32 else c) :: unescape (a :: b :: t)
  | c :: t => if c = 0 then [] else (if c = 43 then 32 else c) :: unescape t

/-- A digit as `std::hex` with `std::uppercase` writes it. -/
def hexUpper (n : Nat) : Nat := if n < 10 then 48 + n else 55 + n

/-- `escape` (httpclient.cpp:136-156). -/
def escape : Text → Text
  | [] => []
  | c :: t => (if isAlnum c = true ∨ c = 45 ∨ c = 95 ∨ c = 46 ∨ c = 126 then [c] else [37, hexUpper (c / 16), hexUpper (c % 16)]) ++ escape t

end Trident.Http
