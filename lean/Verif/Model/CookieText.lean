import Verif.Model.Cookie
import Verif.Model.Iri
import Verif.Model.Date
import Verif.Model.Headers
import Verif.Model.Descriptors
/-!
Cookies given as texts: http/cookies.py:104-118 (`_make_cookie_domain`), 156-286 (`parse_cookie`, `dump_cookie` with
their encodings), responses.py:400-445 (`set_cookie`), requests.py:295-301 (`cookies`) and test.py:164-172 (the
cookie jar of the test client).
-/
namespace Verif.CookieText
open Verif

/-- What is taken from the outside: the host codec, `str.lower`, the schemes with a host, and `time()`, in whole
seconds.  Used for cookies.py:198-286. -/
structure Cfg where
  idna : Str → Except PyErr Bytes
  lower : Str → Str
  usesNetloc : Str → Bool
  now : Int

/-- `_make_cookie_domain`, cookies.py:104-118. -/
def cookieDomain (idna : Str → Except PyErr Bytes) : Option Str → Except PyErr (Option Bytes)
  | none => .ok none
  | some domain =>
    match Wsgi.encodeIdna idna domain with
    | .error e => .error e
    | .ok b =>
      let b := if 58 ∈ b then b.takeWhile (· ≠ 58) else b
      if 46 ∈ b then .ok (some b) else .error .valueError

/-- `max_age`: seconds, or a `timedelta` of days and seconds.  Used for cookies.py:245-246. -/
inductive Age where
  | seconds (n : Int)
  | delta (days seconds : Int)

/-- cookies.py:245-246. -/
def Age.total : Age → Int
  | .seconds n => n
  | .delta d s => d * 60 * 60 * 24 + s

/-- `expires`: text, a time stamp in whole seconds, or a `datetime` in UTC.  Used for cookies.py:247-249. -/
inductive Expires where
  | text (s : Str)
  | stamp (n : Int)
  | time (t : Date.DateTime)

/-- The arguments of `dump_cookie` and `set_cookie`, cookies.py:198-202. -/
structure Args where
  key : Str
  value : Str := []
  maxAge : Option Age := none
  expires : Option Expires := none
  path : Option Str := some s%"/"
  domain : Option Str := none
  secure : Bool := false
  httponly : Bool := false

/-- `cookie_date`, cookies.py:140-153, of a time stamp.  Simplification: for the years 1 to 9999; others are given as
`overflowError`. -/
def stampText (n : Int) : Except PyErr Str :=
  match Date.gmtime n with
  | none => .error .overflowError
  | some t => .ok (Date.dumpDate t s%"-")

/-- The text of the attribute Expires, cookies.py:247-251; `sync_expires` is true. -/
def expiresText (cfg : Cfg) (a : Args) : Except PyErr (Option Str) :=
  match a.expires with
  | some (.text s) => .ok (some s)
  | some (.stamp n) => (stampText n).map some
  | some (.time t) => .ok (some (Date.dumpDate t s%"-"))
  | none =>
    match a.maxAge with
    | none => .ok none
    | some m => (stampText (cfg.now + m.total)).map some

/-- The path, cookies.py:242-243. -/
def pathUri (cfg : Cfg) : Option Str → Except PyErr (Option Str)
  | none => .ok none
  | some p => (Iri.iriToUri cfg.idna cfg.lower cfg.usesNetloc p).map some

/-- The attributes, encoded as UTF-8, cookies.py:242-251 and 274-275. -/
def attrsOf (cfg : Cfg) (a : Args) : Except PyErr Cookie.Attrs :=
  match pathUri cfg a.path with
  | .error e => .error e
  | .ok path =>
    match cookieDomain cfg.idna a.domain with
    | .error e => .error e
    | .ok domain =>
      match expiresText cfg a with
      | .error e => .error e
      | .ok expires => .ok ⟨domain, expires.map Utf8.encode, a.maxAge.map fun m => Utf8.encode (Py.intStr m.total),
          a.secure, a.httponly, path.map Utf8.encode⟩

/-- `dump_cookie`, cookies.py:198-286, with the charset UTF-8. -/
def dumpCookie (cfg : Cfg) (a : Args) : Except PyErr Str :=
  match attrsOf cfg a with
  | .error e => .error e
  | .ok attrs => .ok (Utf8.latin1 (Cookie.dumpCookie (Utf8.encode a.key) (Utf8.encode a.value) attrs))

/-- `set_cookie`, responses.py:400-431. -/
def setCookie (cfg : Cfg) (h : Headers.HList) (a : Args) : Headers.HList × Except PyErr Unit :=
  match dumpCookie cfg a with
  | .error e => (h, .error e)
  | .ok s => Headers.add h s%"Set-Cookie" s []

/-- `delete_cookie`, responses.py:433-445. -/
def deleteCookie (cfg : Cfg) (h : Headers.HList) (key : Str) (path domain : Option Str) :
    Headers.HList × Except PyErr Unit :=
  setCookie cfg h { key, expires := some (.stamp 0), maxAge := some (.seconds 0), path, domain }

/-- A call of `set_cookie` or of `delete_cookie`.  Used for responses.py:400-445. -/
inductive Call where
  | set (a : Args)
  | delete (key : Str) (path domain : Option Str)

/-- One call, responses.py:400-445. -/
def Call.exec (cfg : Cfg) (h : Headers.HList) : Call → Headers.HList × Except PyErr Unit
  | .set a => setCookie cfg h a
  | .delete key path domain => deleteCookie cfg h key path domain

/-- Calls one after the other, up to the first that raises, responses.py:400-445. -/
def run (cfg : Cfg) : Headers.HList → List Call → Headers.HList × Except PyErr Unit
  | h, [] => (h, .ok ())
  | h, c :: cs =>
    match c.exec cfg h with
    | (h', .error e) => (h', .error e)
    | (h', .ok _) => run cfg h' cs

/-- `header.encode('latin1', 'replace')`, cookies.py:182-183. -/
def headerBytes (s : Str) : Bytes := s.map fun c => if c.toNat < 256 then UInt8.ofNat c.toNat else 63

/-- The loop of `_parse_pairs`, cookies.py:188-192: the argument `errors` is not used. -/
def decodePairs : List (Bytes × Bytes) → Except PyErr (List (Str × Str))
  | [] => .ok []
  | (k, v) :: ps =>
    match Utf8.decodeStrict k with
    | .error e => .error e
    | .ok key =>
      match Utf8.decodeStrict v with
      | .error e => .error e
      | .ok val => (decodePairs ps).map ((key, val) :: ·)

/-- `parse_cookie(environ)`, cookies.py:156-196, and `request.cookies`, requests.py:295-301. -/
def requestCookies (environ : List (Str × Str)) : Except PyErr (List (Str × Str)) :=
  (decodePairs (Cookie.cookieParse (headerBytes ((Dict.get environ s%"HTTP_COOKIE").getD [])))).map
    fun ps => ps.foldl (fun d kv => Dict.set d kv.1 kv.2) []

/-- `inject_wsgi`, test.py:164-172, for the names and values in the jar. -/
def injectWsgi (jar : List (Str × Str)) (environ : List (Str × Str)) : List (Str × Str) :=
  if jar = [] then environ
  else Dict.set environ s%"HTTP_COOKIE" (Py.join s%"; " (jar.map fun c => c.1 ++ s%"=" ++ c.2))

end Verif.CookieText
