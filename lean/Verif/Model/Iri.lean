import Verif.Model.RequestUrl
import Verif.Model.Wsgi
/-!
Model of `iri_to_uri` and `url_fix` on whole URLs, /repo/verktyg/urls.py:173-290.
-/
namespace Verif.Iri
open Verif Verif.Py Verif.ReqUrl

/-- `urlquote(text, safe)`: the escape of the UTF-8 bytes, an ASCII text.
Used for urls.py:189-200, 229-237. -/
def quoteText (safe : List UInt8) (s : Str) : Str := Utf8.latin1 (Urls.quote safe (Utf8.encode s))

/-- `urlquote_plus(text, safe)`: as `urlquote`, and spaces become `+`.
Used for urls.py:281-286. -/
def quotePlusText (safe : List UInt8) (s : Str) : Str :=
  Utf8.latin1 ((Urls.quote (32 :: safe) (Utf8.encode s)).map fun b => if b = 32 then 43 else b)

/-- `encode_idna(hostname).decode('ascii')`, urls.py:176; `idna` is the codec for one label. -/
def hostName (idna : Str → Except PyErr Bytes) (name : Str) : Except PyErr Str :=
  match Wsgi.encodeIdna idna name with
  | .error e => .error e
  | .ok b => if b.all (· < 128) then .ok (Utf8.latin1 b) else .error .unicodeError

/-- Host and port of `_encode_netloc`, urls.py:174-185.  Simplification: what follows a percent sign in a host name is
made lower case too, which `urlsplit` leaves alone since Python 3.6.4. -/
def hostUri (idna : Str → Except PyErr Bytes) (lower : Str → Str) (netloc : Str) : Except PyErr Str :=
  let name := lower (hostInfo netloc).1
  match (if name ≠ [] then hostName idna name else .ok []) with
  | .error e => .error e
  | .ok host =>
    let host := if ':' ∈ host then '[' :: host ++ [']'] else host
    match portOf netloc with
    | .error e => .error e
    | .ok none => .ok host
    | .ok (some p) => .ok (if p = 0 then host else host ++ ':' :: intStr p)

/-- The bytes left alone in user names and passwords, urls.py:190, 197. -/
def authSafe : List UInt8 := b%"/:%"

/-- User name and password of `_encode_netloc`, urls.py:187-202: `none` when there is neither. -/
def authUri (netloc : Str) : Option Str :=
  match (userSplit netloc).1 with
  | none => none
  | some info =>
    let name := (split1 ':' info).1
    let pass := (split1 ':' info).2.getD []
    if name = [] ∧ pass = [] then none
    else if pass = [] then some (quoteText authSafe name)
    else some (quoteText authSafe name ++ ':' :: quoteText authSafe pass)

/-- `_encode_netloc`, urls.py:173-204. -/
def encodeNetloc (idna : Str → Except PyErr Bytes) (lower : Str → Str) (netloc : Str) : Except PyErr Str :=
  match hostUri idna lower netloc with
  | .error e => .error e
  | .ok host => match authUri netloc with
    | none => .ok host
    | some a => .ok (a ++ '@' :: host)

/-- `iri_to_uri`, urls.py:207-244. -/
def iriToUri (idna : Str → Except PyErr Bytes) (lower : Str → Str) (usesNetloc : Str → Bool) (iri : Str) :
    Except PyErr Str :=
  match urlsplit lower iri with
  | .error e => .error e
  | .ok u => match encodeNetloc idna lower u.netloc with
    | .error e => .error e
    | .ok netloc => .ok (urlunsplit usesNetloc ⟨u.scheme, netloc, quoteText Urls.pathSafe u.path,
        quoteText Urls.querySafe u.query, quoteText Urls.fragmentSafe u.fragment⟩)

/-- The bytes left alone in paths by `url_fix`, urls.py:278-280. -/
def fixPathSafe : List UInt8 := b%"/%+$!*'(),"

/-- The bytes left alone in queries and fragments by `url_fix`, urls.py:281-286. -/
def fixQuerySafe : List UInt8 := b%":&%=+$!*'(),"

/-- The first two steps of `url_fix`, urls.py:260-272: backslashes become slashes, and
`file://C:/` gets its third slash.  `isAlpha` is `str.isalpha` for one character. -/
def fixSlashes (isAlpha : Char → Bool) (s : Str) : Str :=
  let s := s.map fun c => if c = '\\' then '/' else c
  match s with
  | 'f' :: 'i' :: 'l' :: 'e' :: ':' :: '/' :: '/' :: c :: d :: '/' :: rest =>
    if isAlpha c ∧ (d = ':' ∨ d = '|') then s%"file:///" ++ c :: d :: '/' :: rest else s
  | _ => s

/-- `url_fix`, urls.py:247-290, with the default character set. -/
def urlFix (idna : Str → Except PyErr Bytes) (lower : Str → Str) (usesNetloc : Str → Bool) (isAlpha : Char → Bool)
    (s : Str) : Except PyErr Str :=
  match urlsplit lower (fixSlashes isAlpha s) with
  | .error e => .error e
  | .ok u => match encodeNetloc idna lower u.netloc with
    | .error e => .error e
    | .ok netloc => .ok (urlunsplit usesNetloc ⟨u.scheme, netloc, quoteText fixPathSafe u.path,
        quotePlusText fixQuerySafe u.query, quotePlusText fixQuerySafe u.fragment⟩)

end Verif.Iri
