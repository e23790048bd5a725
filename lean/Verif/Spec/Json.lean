import Verif.Py
/-! Specification of JSON texts: a reader for RFC 8259. -/
namespace Verif.Spec.Json
open Verif

/-- The values of JSON.  A number is its text; the members of an object are in their order. -/
inductive Value where
  | null
  | bool (b : Bool)
  | num (text : Str)
  | str (s : Str)
  | arr (xs : List Value)
  | obj (kvs : List (Str × Value))

/-- White space. -/
def isWs (c : Char) : Bool := c == ' ' || c == '\n' || c == '\t' || c == '\r'

/-- Without the white space at the left. -/
def skipWs (s : Str) : Str := s.dropWhile isWs

/-- A digit. -/
def isDigit (c : Char) : Bool := 48 ≤ c.toNat && c.toNat ≤ 57

/-- Characters of numbers. -/
def numChar (c : Char) : Bool := isDigit c || c == '-' || c == '+' || c == '.' || c == 'e' || c == 'E'

/-- Nothing, or an exponent. -/
def isExp : Str → Bool
  | [] => true
  | e :: r => (e == 'e' || e == 'E') &&
    match r with
    | [] => false
    | c :: cs => if c == '+' || c == '-' then cs != [] && cs.all isDigit else isDigit c && cs.all isDigit

/-- What may follow the digits before the point. -/
def isFrac : Str → Bool
  | [] => true
  | c :: r => if c == '.' then
      match r with
      | [] => false
      | d :: ds => isDigit d && isExp (ds.dropWhile isDigit)
    else isExp (c :: r)

/-- A number without sign: no zero at the left of other digits. -/
def isUnsigned : Str → Bool
  | [] => false
  | c :: r => if c == '0' then isFrac r else isDigit c && isFrac (r.dropWhile isDigit)

/-- Texts of numbers. -/
def isNumber (s : Str) : Bool :=
  s.all numChar && match s with
    | '-' :: r => isUnsigned r
    | s => isUnsigned s

/-- The value of a hexadecimal digit. -/
def hexVal (c : Char) : Option Nat :=
  if 48 ≤ c.toNat ∧ c.toNat ≤ 57 then some (c.toNat - 48)
  else if 97 ≤ c.toNat ∧ c.toNat ≤ 102 then some (c.toNat - 87)
  else if 65 ≤ c.toNat ∧ c.toNat ≤ 70 then some (c.toNat - 55)
  else none

/-- Four hexadecimal digits. -/
def hex4 : Str → Option (Nat × Str)
  | a :: b :: c :: d :: r =>
    match hexVal a, hexVal b, hexVal c, hexVal d with
    | some a, some b, some c, some d => some (((a * 16 + b) * 16 + c) * 16 + d, r)
    | _, _, _, _ => none
  | _ => none

/-- Characters after a backslash. -/
def short : Char → Option Char
  | '"' => some '"'
  | '\\' => some '\\'
  | '/' => some '/'
  | 'b' => some (Char.ofNat 8)
  | 'f' => some (Char.ofNat 12)
  | 'n' => some '\n'
  | 'r' => some '\r'
  | 't' => some '\t'
  | _ => none

/-- The character of a `\u` escape; one outside of the basic plane takes two of them. -/
def unicode (s : Str) : Option (Char × Str) :=
  match hex4 s with
  | none => none
  | some (a, r) =>
    if a < 0xd800 ∨ 0xdfff < a then some (Char.ofNat a, r)
    else
      match r with
      | '\\' :: 'u' :: r =>
        match hex4 r with
        | none => none
        | some (b, r) =>
          if a < 0xdc00 ∧ 0xdc00 ≤ b ∧ b ≤ 0xdfff then some (Char.ofNat (0x10000 + (a - 0xd800) * 0x400 + (b - 0xdc00)), r)
          else none
      | _ => none

/-- The characters up to the closing quote, and what follows it. -/
def chars : Nat → Str → Option (Str × Str)
  | 0, _ => none
  | _ + 1, [] => none
  | n + 1, c :: r =>
    if c = '"' then some ([], r)
    else if c.toNat < 32 then none
    else if c = '\\' then
      match r with
      | [] => none
      | e :: r =>
        match (if e = 'u' then unicode r else (short e).map (·, r)) with
        | none => none
        | some (x, r) => (chars n r).map fun q => (x :: q.1, q.2)
    else (chars n r).map fun q => (c :: q.1, q.2)

/-- Words and numbers. -/
def scalar (s : Str) : Option (Value × Str) :=
  if s%"null" <+: s then some (.null, s.drop 4)
  else if s%"true" <+: s then some (.bool true, s.drop 4)
  else if s%"false" <+: s then some (.bool false, s.drop 5)
  else if isNumber (s.takeWhile numChar) then some (.num (s.takeWhile numChar), s.dropWhile numChar)
  else none

mutual
/-- A value, and what follows it. -/
def value : Nat → Str → Option (Value × Str)
  | 0, _ => none
  | n + 1, s =>
    match skipWs s with
    | [] => none
    | c :: r =>
      if c = '"' then (chars n r).map fun q => (.str q.1, q.2)
      else if c = '[' then
        if (skipWs r).head? = some ']' then some (.arr [], (skipWs r).tail)
        else (items n r).map fun q => (.arr q.1, q.2)
      else if c = '{' then
        if (skipWs r).head? = some '}' then some (.obj [], (skipWs r).tail)
        else (members n r).map fun q => (.obj q.1, q.2)
      else scalar (c :: r)
/-- The elements of an array, up to its bracket. -/
def items : Nat → Str → Option (List Value × Str)
  | 0, _ => none
  | n + 1, s =>
    match value n s with
    | none => none
    | some (v, r) =>
      match skipWs r with
      | ',' :: r => (items n r).map fun q => (v :: q.1, q.2)
      | ']' :: r => some ([v], r)
      | _ => none
/-- The members of an object, up to its brace. -/
def members : Nat → Str → Option (List (Str × Value) × Str)
  | 0, _ => none
  | n + 1, s =>
    match skipWs s with
    | '"' :: r =>
      match chars n r with
      | none => none
      | some (k, r) =>
        match skipWs r with
        | ':' :: r =>
          match value n r with
          | none => none
          | some (v, r) =>
            match skipWs r with
            | ',' :: r => (members n r).map fun q => ((k, v) :: q.1, q.2)
            | '}' :: r => some ([(k, v)], r)
            | _ => none
        | _ => none
    | _ => none
end

/-- Reading a whole text; the number bounds the depth of the reader. -/
def read (n : Nat) (s : Str) : Option Value :=
  match value n s with
  | some (v, r) => if skipWs r = [] then some v else none
  | none => none

example : read 9 s%" [ -1.5e3 ,\"\\u00e9\\ud83d\\ude00\\n\" ] " = some (.arr [.num s%"-1.5e3", .str s%"é😀\n"]) := rfl
example : read 9 s%"[01]" = none := rfl
example : read 9 s%"{\"a\": null, \"b\": [true, {}]} " = some (.obj [(s%"a", .null), (s%"b", .arr [.bool true, .obj []])]) := rfl

end Verif.Spec.Json
