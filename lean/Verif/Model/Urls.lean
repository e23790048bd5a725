import Verif.Py
/-!
Model of percent coding in `/repo/verktyg/urls.py` and `urllib.parse.quote`, on bytes.
-/
namespace Verif.Urls
open Verif

/-- The value of a hexadecimal digit (byte).  Used for urls.py:16-20. -/
def hexVal (b : UInt8) : Option UInt8 :=
  if 48 ≤ b ∧ b ≤ 57 then some (b - 48)
  else if 65 ≤ b ∧ b ≤ 70 then some (b - 55)
  else if 97 ≤ b ∧ b ≤ 102 then some (b - 87)
  else none

/-- `_hextobyte`, urls.py:16-20: the byte written by two digits. -/
def hexByte (a b : UInt8) : Option UInt8 :=
  match hexVal a, hexVal b with
  | some x, some y => some (16 * x + y)
  | _, _ => none

/-- `s.split(c)` on bytes.  Used for urls.py:23-41. -/
def bsplit (c : UInt8) : Bytes → List Bytes
  | [] => [[]]
  | x :: xs =>
    if x = c then [] :: bsplit c xs
    else match bsplit c xs with
      | [] => [[x]]
      | y :: ys => (x :: y) :: ys

/-- One item after a percent sign, urls.py:31-40. -/
def unquoteItem (unsafeBytes : List UInt8) (item : Bytes) : Bytes :=
  match item with
  | a :: b :: rest =>
    match hexByte a b with
    | some c => if c ∈ unsafeBytes then 37 :: item else c :: rest
    | none => 37 :: item
  | _ => 37 :: item

/-- `_safe_urlunquote_to_bytes`, urls.py:23-41, of the UTF-8 bytes of the string. -/
def safeUnquote (unsafeBytes : List UInt8) (s : Bytes) : Bytes :=
  match bsplit 37 s with
  | [] => []
  | b :: bits => b ++ (bits.map (unquoteItem unsafeBytes)).flatten

/-- Bytes that `urllib.parse.quote` never quotes (Python 3.6: letters, digits, `_.-`).
Used for urls.py:207-244. -/
def alwaysSafe (b : UInt8) : Bool :=
  (48 ≤ b && b ≤ 57) || (65 ≤ b && b ≤ 90) || (97 ≤ b && b ≤ 122) || b = 95 || b = 46 || b = 45

/-- A hexadecimal digit, upper case.  Used for urls.py:207-244. -/
def hexDigit (n : UInt8) : UInt8 := if n < 10 then 48 + n else 55 + n

/-- `urllib.parse.quote(s, safe)` of the UTF-8 bytes of `s` (`Quoter`).
Used for urls.py:207-244. -/
def quote (safe : List UInt8) (s : Bytes) : Bytes :=
  (s.map fun b => if alwaysSafe b ∨ b ∈ safe then [b] else [37, hexDigit (b / 16), hexDigit (b % 16)]).flatten

/-- The safe set for paths in `iri_to_uri`, urls.py:232-234. -/
def pathSafe : List UInt8 := b%"/:~+%"
/-- The safe set for queries in `iri_to_uri`, urls.py:235-237. -/
def querySafe : List UInt8 := b%"%&[]:;$*()+,!?*/="
/-- The unsafe set for paths in `uri_to_iri`, urls.py:159-161. -/
def pathUnsafe : List UInt8 := b%"%/;?"
/-- The unsafe set for queries and fragments in `uri_to_iri`, urls.py:162-167. -/
def queryUnsafe : List UInt8 := b%"%;/?:@&=+,$#"
/-- The safe set for fragments in `iri_to_uri`, urls.py:238-240. -/
def fragmentSafe : List UInt8 := b%"=%&[]:;$()+,!?*/"

/-- `s.split(c, 1)` when `c` is in `s`, else `(s, "")`, as `urlsplit` uses it.
Used for urls.py:105-171. -/
def cut (c : UInt8) : Bytes → Bytes × Bytes
  | [] => ([], [])
  | x :: xs => if x = c then ([], xs) else (x :: (cut c xs).1, (cut c xs).2)

/-- The path, query and fragment of a reference.  Used for urls.py:105-171. -/
structure Ref where
  path : Bytes
  query : Bytes
  fragment : Bytes
deriving DecidableEq

/-- `urlsplit` of a reference that begins with a single slash, so has neither scheme nor
authority: the fragment is cut off at the first `#`, then the query at the first `?`.
Used for urls.py:105-171. -/
def splitRef (s : Bytes) : Ref :=
  let a := cut 35 s
  let b := cut 63 a.1
  ⟨b.1, b.2, a.2⟩

/-- `urlunsplit` without scheme and authority: empty parts are left out.
Used for urls.py:105-171. -/
def unsplitRef (r : Ref) : Bytes :=
  let s := if r.query = [] then r.path else r.path ++ 63 :: r.query
  if r.fragment = [] then s else s ++ 35 :: r.fragment

/-- `uri_to_iri`, urls.py:105-171, of a reference without scheme and authority, as bytes (the
final decoding from UTF-8 is left out). -/
def uriToIri (s : Bytes) : Bytes :=
  let r := splitRef s
  unsplitRef ⟨safeUnquote pathUnsafe r.path, safeUnquote queryUnsafe r.query, safeUnquote queryUnsafe r.fragment⟩

/-- `iri_to_uri`, urls.py:207-244, of a reference without scheme and authority, of the UTF-8
bytes. -/
def iriToUri (s : Bytes) : Bytes :=
  let r := splitRef s
  unsplitRef ⟨quote pathSafe r.path, quote querySafe r.query, quote fragmentSafe r.fragment⟩

end Verif.Urls
