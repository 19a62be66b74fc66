/-
Specification: the JSON texts of RFC 8259, as far as they consist of strings, arrays and objects, and what they stand for.
-/
namespace Trident.Http.Spec

/-- What a JSON text stands for. -/
inductive Doc
  | str (s : List Nat)
  | arr (l : List Doc)
  | obj (l : List (List Nat × Doc))

/-- The text after the white space. -/
def skip : List Nat → List Nat
  | c :: t => if c = 32 ∨ c = 9 ∨ c = 10 ∨ c = 13 then skip t else c :: t
  | [] => []

/-- The value of a hexadecimal digit. -/
def hexVal (c : Nat) : Option Nat :=
  if 48 ≤ c ∧ c ≤ 57 then some (c - 48) else if 65 ≤ c ∧ c ≤ 70 then some (c - 55) else if 97 ≤ c ∧ c ≤ 102 then some (c - 87) else none

/-- The letters of the short escapes and what they stand for. -/
def short : Nat → Option Nat
  | 34 => some 34
  | 92 => some 92
  | 47 => some 47
  | 98 => some 8
  | 102 => some 12
  | 110 => some 10
  | 114 => some 13
  | 116 => some 9
  | _ => none

/-- `Chars t s r`: after an opening quote, `t` is the string `s` up to its closing quote, then `r`.  Bytes from 128 belong to characters of UTF-8 and stand for themselves.
Escapes `\u` of characters from 128 are left out. -/
inductive Chars : List Nat → List Nat → List Nat → Prop
  | close {r} : Chars (34 :: r) [] r
  | plain {c t s r} : c ≠ 34 → c ≠ 92 → 32 ≤ c → Chars t s r → Chars (c :: t) (c :: s) r
  | short {e c t s r} : short e = some c → Chars t s r → Chars (92 :: e :: t) (c :: s) r
  | hex {a b c d w x y z t s r} : hexVal a = some w → hexVal b = some x → hexVal c = some y → hexVal d = some z → ((w * 16 + x) * 16 + y) * 16 + z < 128 →
      Chars t s r → Chars (92 :: 117 :: a :: b :: c :: d :: t) ((((w * 16 + x) * 16 + y) * 16 + z) :: s) r

mutual
/-- `Value t d r`: `t` is the document `d`, then `r`. -/
inductive Value : List Nat → Doc → List Nat → Prop
  | str {t u s r} : skip t = 34 :: u → Chars u s r → Value t (.str s) r
  | none {t u r} : skip t = 91 :: u → skip u = 93 :: r → Value t (.arr []) r
  | arr {t u l r} : skip t = 91 :: u → Elems u l r → Value t (.arr l) r
  | empty {t u r} : skip t = 123 :: u → skip u = 125 :: r → Value t (.obj []) r
  | obj {t u l r} : skip t = 123 :: u → Members u l r → Value t (.obj l) r
/-- The elements of an array, with the bracket at their end. -/
inductive Elems : List Nat → List Doc → List Nat → Prop
  | one {t d u r} : Value t d u → skip u = 93 :: r → Elems t [d] r
  | more {t d u v l r} : Value t d u → skip u = 44 :: v → Elems v l r → Elems t (d :: l) r
/-- The members of an object, with the brace at their end. -/
inductive Members : List Nat → List (List Nat × Doc) → List Nat → Prop
  | one {t u k v w d x r} : skip t = 34 :: u → Chars u k v → skip v = 58 :: w → Value w d x → skip x = 125 :: r → Members t [(k, d)] r
  | more {t u k v w d x y l r} : skip t = 34 :: u → Chars u k v → skip v = 58 :: w → Value w d x → skip x = 44 :: y → Members y l r → Members t ((k, d) :: l) r
end

/-- The text `t` is JSON and stands for `d`. -/
def IsJson (t : List Nat) (d : Doc) : Prop := ∃ r, Value t d r ∧ skip r = []

mutual
/-- The same document, up to the order of the members of objects. -/
inductive Same : Doc → Doc → Prop
  | str {s} : Same (.str s) (.str s)
  | arr {l l'} : SameAll l l' → Same (.arr l) (.arr l')
  | obj {l l' l''} : SameMembers l l' → l'.Perm l'' → Same (.obj l) (.obj l'')
inductive SameAll : List Doc → List Doc → Prop
  | nil : SameAll [] []
  | cons {d d' l l'} : Same d d' → SameAll l l' → SameAll (d :: l) (d' :: l')
inductive SameMembers : List (List Nat × Doc) → List (List Nat × Doc) → Prop
  | nil : SameMembers [] []
  | cons {k d d' l l'} : Same d d' → SameMembers l l' → SameMembers ((k, d) :: l) ((k, d') :: l')
end

end Trident.Http.Spec
