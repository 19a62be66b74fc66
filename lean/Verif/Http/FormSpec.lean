import Verif.Http.JsonSpec
/-!
Specification: texts of the type `application/x-www-form-urlencoded` (URL standard, section 5), the values in them, and percent-encoding (RFC 3986, section 2.1).
-/
namespace Trident.Http.Spec

/-- `Decodes t s`: the value `t` of a form stands for the bytes `s`.  `+` is a space, `%` and two hexadecimal digits are a byte, the other bytes stand for themselves. -/
inductive Decodes : List Nat → List Nat → Prop
  | nil : Decodes [] []
  | plus {t s} : Decodes t s → Decodes (43 :: t) (32 :: s)
  | hex {a b x y t s} : hexVal a = some x → hexVal b = some y → Decodes t s → Decodes (37 :: a :: b :: t) ((16 * x + y) :: s)
  | plain {c t s} : c ≠ 43 → c ≠ 37 → c ≠ 0 → c ≠ 38 → c ≠ 61 → Decodes t s → Decodes (c :: t) (c :: s)

/-- The bytes that RFC 3986 calls unreserved: letters, digits, `-`, `.`, `_` and `~`. -/
def Unreserved (c : Nat) : Prop := (48 ≤ c ∧ c ≤ 57) ∨ (65 ≤ c ∧ c ≤ 90) ∨ (97 ≤ c ∧ c ≤ 122) ∨ c = 45 ∨ c = 46 ∨ c = 95 ∨ c = 126

/-- `Percent s t`: `t` is `s` with all bytes that are not unreserved written as `%` and two hexadecimal digits. -/
inductive Percent : List Nat → List Nat → Prop
  | nil : Percent [] []
  | plain {c s t} : Unreserved c → Percent s t → Percent (c :: s) (c :: t)
  | hex {a b x y s t} : ¬ Unreserved (16 * x + y) → hexVal a = some x → hexVal b = some y → Percent s t → Percent ((16 * x + y) :: s) (37 :: a :: b :: t)

/-- `Occurs p t i`: the text `p` stands in `t` from position `i` on. -/
def Occurs (p t : List Nat) (i : Nat) : Prop := ∃ u v, t = u ++ p ++ v ∧ u.length = i

/-- A text of ASCII characters, as bytes. -/
def bytes (s : String) : List Nat := s.toList.map Char.toNat

/-- The end of the headers: an empty line. -/
def headerEnd : List Nat := [13, 10, 13, 10]

/-- `First p a t`: in `a ++ t`, the text `p` stands after `a` and not before. -/
def First (p a t : List Nat) : Prop := p <+: t ∧ ∀ i, Occurs p (a ++ t) i → a.length ≤ i

/-- `Framed s head body`: the request `s` has the headers `head` and the body `body`, and the headers say how long the body is. -/
def Framed (s head body : List Nat) : Prop :=
  s = head ++ (headerEnd ++ body) ∧ First headerEnd head (headerEnd ++ body) ∧
    ∃ a b, head ++ headerEnd = a ++ (bytes "Content-Length: " ++ (bytes (toString body.length) ++ ([13, 10] ++ b))) ∧
      ∀ u v, head ++ headerEnd = u ++ (bytes "Content-Length:" ++ v) → a.length ≤ u.length

/-- `Number ds n`: the hexadecimal digits `ds`, at least one, are the number `n`. -/
inductive Number : List Nat → Nat → Prop
  | one {c x} : hexVal c = some x → Number [c] x
  | more {ds n c x} : Number ds n → hexVal c = some x → Number (ds ++ [c]) (16 * n + x)

/-- `Chunks t data`: the text `t` is the body `data` in chunks (RFC 9112, section 7.1, without extensions), up to a chunk of length zero. -/
inductive Chunks : List Nat → List Nat → Prop
  | last {ds t} : Number ds 0 → Chunks (ds ++ ([13, 10] ++ t)) []
  | chunk {ds d t r} : Number ds d.length → d ≠ [] → Chunks t r → Chunks (ds ++ ([13, 10] ++ (d ++ ([13, 10] ++ t)))) (d ++ r)

/-- `Pieces ps data`: the body `data` in chunks comes in the pieces `ps`, one after the other, and no piece ends in the line with the length of a chunk, or before that line.
So a piece can end before the data of a chunk, in it, and between the data and the end of its line. -/
inductive Pieces : List (List Nat) → List Nat → Prop
  | last {ds t more} : Number ds 0 → Pieces ((ds ++ ([13, 10] ++ t)) :: more) []
  | whole {ds d p ps r} : Number ds d.length → d ≠ [] → Pieces (p :: ps) r → Pieces ((ds ++ ([13, 10] ++ (d ++ ([13, 10] ++ p)))) :: ps) (d ++ r)
  | cut {ds d mid e p ps r} : Number ds (d ++ (mid.flatten ++ e)).length → d ++ (mid.flatten ++ e) ≠ [] → (∀ m ∈ mid, m ≠ []) → Pieces (p :: ps) r →
      Pieces ((ds ++ ([13, 10] ++ d)) :: (mid ++ ((e ++ ([13, 10] ++ p)) :: ps))) (d ++ (mid.flatten ++ (e ++ r)))

/-- A text in lower case. -/
def low (t : List Nat) : List Nat := t.map fun c => if 65 ≤ c ∧ c ≤ 90 then c + 32 else c

/-- The first line of a response says that the request succeeded. -/
def OkStatus (head : List Nat) : Prop := ∃ c t, head = bytes "HTTP/1." ++ (c :: (bytes " 200 " ++ t))

/-- The headers of a response say that its body has `n` bytes.  Names of headers can have upper and lower case. -/
def SaysLength (head : List Nat) (n : Nat) : Prop :=
  ∃ a name b, head = a ++ (name ++ (32 :: (bytes (toString n) ++ b))) ∧ low name = bytes "content-length:" ∧ (b = [] ∨ ∃ r, b = 13 :: 10 :: r) ∧
    ∀ u w v, head = u ++ (w ++ v) → low w = bytes "content-length:" → a.length ≤ u.length

/-- The headers of a response say that its body comes in chunks. -/
def SaysChunked (head : List Nat) : Prop := (∃ i, Occurs (bytes "transfer-encoding: chunked") (low head) i) ∧ ∀ i, ¬ Occurs (bytes "content-length:") (low head) i

end Trident.Http.Spec
