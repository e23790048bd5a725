import Verif.Py
import Verif.Regex
import Verif.Model.Quote
/-!
Model of cookies (`/repo/verktyg/http/cookies.py`).  Byte constants: `"` 34, `,` 44,
`;` 59, `=` 61, `\` 92, newline 10, space 32.
-/
namespace Verif.Cookie
open Verif Verif.Re Verif.Quote

/-- `_cookie_params`, cookies.py:21-24. -/
def cookieParams : List Bytes :=
  [b%"expires", b%"path", b%"comment", b%"max-age", b%"secure", b%"httponly", b%"version"]

/-- `_legal_cookie_chars`, cookies.py:25-26. -/
def legalChars : Bytes :=
  b%"abcdefghijklmnopqrstuvwxyzABCDEFGHIJKLMNOPQRSTUVWXYZ0123456789!#$%&'*+-.^_`|~:"

/-- `'\\%03o' % i`.  Used for cookies.py:28-37, 60. -/
def octalEscape (c : UInt8) : Bytes := [92, 48 + c / 64, 48 + c / 8 % 8, 48 + c % 8]

/-- `_cookie_quoting_map.get(char, [char])`, cookies.py:28-37, 60. -/
def quoteByte (c : UInt8) : Bytes :=
  if c < 32 || c ≥ 127 then octalEscape c
  else if c = 44 then b%"\\054"
  else if c = 59 then b%"\\073"
  else if c = 34 then b%"\\\""
  else if c = 92 then b%"\\\\"
  else [c]

/-- `_cookie_quote(b)`, cookies.py:52-66. -/
def cookieQuote (b : Bytes) : Bytes :=
  let buf := b.flatMap fun c => if legalChars.contains c then [c] else quoteByte c
  if b.all (fun c => legalChars.contains c) then buf else [34] ++ buf ++ [34]

/-- `_octal_re`, cookies.py:39, at one position. -/
def octAt : Bytes → Bool
  | a :: x :: y :: z :: _ =>
    a == 92 && (48 ≤ x && x ≤ 51) && (48 ≤ y && y ≤ 55) && (48 ≤ z && z ≤ 55)
  | _ => false

/-- `_quote_re`, cookies.py:40, at one position (`.` does not match a newline). -/
def escAt : Bytes → Bool
  | a :: x :: _ => a == 92 && x != 10
  | _ => false

/-- `pattern.search(b, i).start(0)`, relative to `i`: the leftmost match.
Used for cookies.py:80-101. -/
def searchIdx (p : Bytes → Bool) : Bytes → Option Nat
  | [] => if p [] then some 0 else none
  | c :: cs => if p (c :: cs) then some 0 else (searchIdx p cs).map (· + 1)

/-- `int(b[j+1:j+4], 8)`.  Used for cookies.py:80-101. -/
def octVal : Bytes → UInt8
  | x :: y :: z :: _ => (x - 48) * 64 + (y - 48) * 8 + (z - 48)
  | _ => 0

/-- The loop of `_cookie_unquote`, cookies.py:80-101, on `b[i:]`.  The fuel bounds the
number of iterations (each consumes at least two bytes). -/
def unquoteLoop : Nat → Bytes → Bytes
  | 0, _ => []
  | n + 1, s =>
    if s = [] then []
    else match searchIdx octAt s, searchIdx escAt s with
      | none, none => s
      | none, some k => s.take k ++ (s.drop (k + 1)).take 1 ++ unquoteLoop n (s.drop (k + 2))
      | some j, none => s.take j ++ [octVal (s.drop (j + 1))] ++ unquoteLoop n (s.drop (j + 4))
      | some j, some k =>
        if k < j then s.take k ++ (s.drop (k + 1)).take 1 ++ unquoteLoop n (s.drop (k + 2))
        else s.take j ++ [octVal (s.drop (j + 1))] ++ unquoteLoop n (s.drop (j + 4))

/-- `_cookie_unquote(b)`, cookies.py:68-103. -/
def cookieUnquote (b : Bytes) : Bytes :=
  if b.length < 2 then b
  else if b.head? ≠ some 34 ∨ b.getLast? ≠ some 34 then b
  else
    let inner := b.tail.dropLast
    unquoteLoop (inner.length + 1) inner

/-- `\s` of a `bytes` pattern and the bytes `bytes.strip()` removes.
Used for cookies.py:121-137. -/
def isWs (c : UInt8) : Bool := c == 32 || (9 ≤ c && c ≤ 13)

/-- `_cookie_re`, cookies.py:41-49:
`([^=]+)\s*=\s*("(?:[^\\"]|\\.)*"|(?:.*?))\s*;`. -/
def quotedVal : Re UInt8 :=
  seq (cls (· == 34)) (seq (star true (alt (cls fun c => c != 92 && c != 34)
    (seq (cls (· == 92)) (cls (· != 10))))) (cls (· == 34)))

/-- Used for cookies.py:121-137. -/
def cookieRe : Re UInt8 :=
  seq (grp 1 (plus (cls (· != 61)))) (seq (star true (cls isWs)) (seq (cls (· == 61))
    (seq (star true (cls isWs)) (seq (grp 2 (alt quotedVal (star false (cls (· != 10)))))
      (seq (star true (cls isWs)) (cls (· == 59)))))))

/-- `pattern.search`: the leftmost match, with the text after it.  Used for cookies.py:121-137. -/
def searchRe (r : Re UInt8) : Bytes → Option (M UInt8)
  | [] => first r none []
  | c :: cs => match first r none (c :: cs) with
    | some m => some m
    | none => searchRe r cs

/-- `bytes.strip()`.  Used for cookies.py:121-137. -/
def strip (b : Bytes) : Bytes := ((b.dropWhile isWs).reverse.dropWhile isWs).reverse

/-- `bytes.lower()`.  Used for cookies.py:121-137. -/
def lower (b : Bytes) : Bytes := b.map fun c => if 65 ≤ c && c ≤ 90 then c + 32 else c

/-- The loop of `_cookie_parse_impl`, cookies.py:121-137, on `(b + b';')[i:]`; `i < n`
holds as long as more than the added `;` is left. -/
def parseLoop : Nat → Bytes → List (Bytes × Bytes)
  | 0, _ => []
  | n + 1, s =>
    if s.length ≤ 1 then []
    else match searchRe cookieRe s with
      | none => []
      | some m =>
        let key := strip ((m.group 1).getD [])
        let value := (m.group 2).getD []
        if cookieParams.contains (lower key) then parseLoop n m.rest
        else (cookieUnquote key, cookieUnquote value) :: parseLoop n m.rest

/-- `_cookie_parse_impl(b)`.  Used for cookies.py:156-196. -/
def cookieParse (b : Bytes) : List (Bytes × Bytes) := parseLoop (b.length + 1) (b ++ [59])

/-- `parse_cookie(header)`, cookies.py:156-196, up to the decoding of keys and values:
a dict, so later values replace earlier ones. -/
def parseCookie (b : Bytes) : List (Bytes × Bytes) :=
  (cookieParse b).foldl (fun d kv => dictSet d kv.1 kv.2) []

/-- Optional attribute arguments of `dump_cookie` after encoding: Domain (`domain` after
`_make_cookie_domain`), Expires, Max-Age, Path (after `iri_to_uri`).
Used for cookies.py:260-281. -/
structure Attrs where
  domain : Option Bytes := none
  expires : Option Bytes := none
  maxAge : Option Bytes := none
  secure : Bool := false
  httponly : Bool := false
  path : Option Bytes := some b%"/"

/-- The attribute segments, cookies.py:260-281. -/
def Attrs.segments (a : Attrs) : List Bytes :=
  (a.domain.map fun v => b%"Domain" ++ b%"=" ++ cookieQuote v).toList ++
  (a.expires.map fun v => b%"Expires" ++ b%"=" ++ v).toList ++
  (a.maxAge.map fun v => b%"Max-Age" ++ b%"=" ++ v).toList ++
  (if a.secure then [b%"Secure"] else []) ++
  (if a.httponly then [b%"HttpOnly"] else []) ++
  (a.path.map fun v => b%"Path" ++ b%"=" ++ v).toList

/-- `b'; '.join(l)`.  Used for cookies.py:198-286. -/
def joinSemi : List Bytes → Bytes
  | [] => []
  | [a] => a
  | a :: as => a ++ [59, 32] ++ joinSemi as

/-- `dump_cookie`, cookies.py:198-286, on encoded arguments.  Simplification: the charset
encoding and the latin-1 tunnelling of the result are the identity here. -/
def dumpCookie (key value : Bytes) (a : Attrs) : Bytes :=
  joinSemi ((key ++ [61] ++ cookieQuote value) :: a.segments)

end Verif.Cookie
