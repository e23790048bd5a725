import Verif.Utf8
import Verif.Model.Urls
import Verif.Model.Wsgi
/-!
Model of how a request presents the address it was sent to: the WSGI transport of text
(`/repo/verktyg/wsgi.py:32-43`), paths, query parameters and URLs
(`/repo/verktyg/wsgi.py:46-103, 224-276`, `/repo/verktyg/requests.py:257-443, 611-622`,
`/repo/verktyg/urls.py:63-171`).  The attribute `encoding_errors` keeps its default
`'replace'` and the charset is UTF-8.
-/
namespace Verif.ReqUrl
open Verif Verif.Py

/-! ### Text in a WSGI environ -/

/-- `wsgi_decoding_dance`, wsgi.py:32-33: a character beyond Latin-1 raises
`UnicodeEncodeError`. -/
def decodingDance (s : Str) : Except PyErr Str := (Utf8.toLatin1 s).map Utf8.decode

/-- `wsgi_encoding_dance` of a `str`, wsgi.py:36-39. -/
def encodingDance (s : Str) : Str := Utf8.latin1 (Utf8.encode s)

/-- `wsgi_get_bytes`, wsgi.py:42-43. -/
def getBytes (s : Str) : Except PyErr Bytes := Utf8.toLatin1 s

/-- `environ.get(key) or ''`, and `environ.get(key, '')`: the same for text.
Used for requests.py:265, 316, 329, 382. -/
def envText (environ : List (Str × Str)) (key : Str) : Str := (Dict.get environ key).getD []

/-- `BaseRequest.path`, requests.py:310-319. -/
def path (environ : List (Str × Str)) : Except PyErr Str :=
  match decodingDance (envText environ s%"PATH_INFO") with
  | .error e => .error e
  | .ok raw => .ok ('/' :: lstripP (· = '/') raw)

/-- `BaseRequest.script_root`, requests.py:326-333. -/
def scriptRoot (environ : List (Str × Str)) : Except PyErr Str :=
  match decodingDance (envText environ s%"SCRIPT_NAME") with
  | .error e => .error e
  | .ok raw => .ok (rstripP (· = '/') raw)

/-- `BaseRequest.query_string`, requests.py:380-384. -/
def queryString (environ : List (Str × Str)) : Except PyErr Str :=
  decodingDance (envText environ s%"QUERY_STRING")

/-- `BaseRequest.full_path`, requests.py:321-324. -/
def fullPath (environ : List (Str × Str)) : Except PyErr Str :=
  match path environ with
  | .error e => .error e
  | .ok p => match queryString environ with
    | .error e => .error e
    | .ok q => .ok (p ++ '?' :: q)

/-- `BaseRequest.method`, requests.py:386-390. -/
def method (upper : Str → Str) (environ : List (Str × Str)) : Str :=
  upper ((Dict.get environ s%"REQUEST_METHOD").getD s%"GET")

/-- `BaseRequest.access_route`, requests.py:392-402. -/
def accessRoute (environ : List (Str × Str)) : List Str :=
  match Dict.get environ s%"HTTP_X_FORWARDED_FOR" with
  | some v => (splitOn ',' v).map strip
  | none => match Dict.get environ s%"REMOTE_ADDR" with
    | some v => [v]
    | none => []

/-- `BaseRequest.is_xhr`, requests.py:423-432. -/
def isXhr (lower : Str → Str) (environ : List (Str × Str)) : Bool :=
  lower (lower ((Dict.get environ s%"HTTP_X_REQUESTED_WITH").getD [])) = s%"xmlhttprequest"

/-- `BaseRequest.is_secure`, requests.py:434-438: the comparison is computed but not
returned, so the value is `None`; a missing key raises `KeyError`. -/
def isSecure (environ : List (Str × Str)) : Except PyErr (Option Bool) :=
  match Dict.get environ s%"wsgi.url_scheme" with
  | none => .error .keyError
  | some _ => .ok none

/-- `max_forwards`, requests.py:611-620: `int(None)` raises `TypeError`, which is not
caught. -/
def maxForwards (environ : List (Str × Str)) : Except PyErr (Option Int) :=
  match Dict.get environ s%"HTTP_MAX_FORWARDS" with
  | none => .error .typeError
  | some v => match intOf v with
    | .ok n => .ok (some n)
    | .error .valueError => .ok none
    | .error e => .error e

/-! ### Query parameters -/

/-- `urllib.parse.unquote`: escapes in runs of ASCII characters are decoded, other characters
are kept.  The first argument holds the run so far.  Used for requests.py:268-271. -/
def unquoteGo : Bytes → Str → Str
  | acc, [] => Utf8.decode (Urls.safeUnquote [] acc)
  | acc, c :: cs =>
    if c.toNat < 128 then unquoteGo (acc ++ [Utf8.byte c.toNat]) cs
    else Utf8.decode (Urls.safeUnquote [] acc) ++ c :: unquoteGo [] cs

/-- `urllib.parse.unquote(s, errors='replace')`.  Used for requests.py:268-271. -/
def unquote (s : Str) : Str := unquoteGo [] s

/-- `unquote` of a text with `+` for spaces, as `parse_qsl` does.
Used for requests.py:268-271. -/
def unquotePlus (s : Str) : Str := unquote (s.map fun c => if c = '+' then ' ' else c)

/-- The fields of a query: split at `&`, and in Pythons before 3.6.13 (`semi`) also at `;`.
Used for requests.py:268-271. -/
def fields (semi : Bool) (qs : Str) : List Str :=
  (splitOn '&' qs).flatMap fun f => if semi then splitOn ';' f else [f]

/-- One field of a query: without `=` or with an empty value it is left out.
Used for requests.py:268-271. -/
def parseField (f : Str) : Option (Str × Str) :=
  match split1 '=' f with
  | (_, none) => none
  | (k, some v) => if v = [] then none else some (unquotePlus k, unquotePlus v)

/-- `urllib.parse.parse_qsl(qs, errors='replace')`.  Used for requests.py:268-271. -/
def parseQsl (semi : Bool) (qs : Str) : List (Str × Str) := (fields semi qs).filterMap parseField

/-- `BaseRequest.args`, requests.py:257-271: the pairs given to the parameter storage. -/
def argPairs (semi : Bool) (environ : List (Str × Str)) : Except PyErr (List (Str × Str)) :=
  match decodingDance (envText environ s%"QUERY_STRING") with
  | .error e => .error e
  | .ok qs => .ok (parseQsl semi qs)

/-- `urllib.parse.quote_plus(s)`: nothing but the always safe bytes and spaces is kept, and
spaces become `+`.  Used for /repo/verktyg/routing.py:707-713 and /repo/verktyg/test.py:485-490. -/
def quotePlus (s : Str) : Str :=
  Utf8.latin1 ((Urls.quote [32] (Utf8.encode s)).map fun b => if b = 32 then 43 else b)

/-- `urllib.parse.urlencode` of a list of pairs of texts.
Used for /repo/verktyg/routing.py:707-713 and /repo/verktyg/test.py:485-490. -/
def urlencode (pairs : List (Str × Str)) : Str :=
  join ['&'] (pairs.map fun p => quotePlus p.1 ++ '=' :: quotePlus p.2)

/-! ### URLs -/

/-- The parts of a URL, `urllib.parse.SplitResult`.  Used for urls.py:105-171. -/
structure Split where
  scheme : Str
  netloc : Str
  path : Str
  query : Str
  fragment : Str
deriving DecidableEq

/-- The characters of a scheme.  Used for urls.py:127. -/
def schemeChar (c : Char) : Bool :=
  ('a' ≤ c && c ≤ 'z') || ('A' ≤ c && c ≤ 'Z') || ('0' ≤ c && c ≤ '9') || c = '+' || c = '-' || c = '.'

/-- `_splitnetloc`: up to the first of `/?#`.  Used for urls.py:127. -/
def splitNetloc (s : Str) : Str × Str :=
  (s.takeWhile fun c => !(c = '/' || c = '?' || c = '#'), s.dropWhile fun c => !(c = '/' || c = '?' || c = '#'))

/-- `urlsplit` after the scheme: authority, fragment and query.  Used for urls.py:127. -/
def splitRest (scheme url : Str) : Except PyErr Split :=
  let n := if s%"//" <+: url then splitNetloc (url.drop 2) else ([], url)
  if ('[' ∈ n.1 ∧ ']' ∉ n.1) ∨ (']' ∈ n.1 ∧ '[' ∉ n.1) then .error .valueError
  else
    let f := split1 '#' n.2
    let q := split1 '?' f.1
    .ok ⟨scheme, n.1, q.1, q.2.getD [], f.2.getD []⟩

/-- `urllib.parse.urlsplit` of Python 3.6.  Used for urls.py:127. -/
def urlsplit (lower : Str → Str) (url : Str) : Except PyErr Split :=
  match split1 ':' url with
  | (_, none) => splitRest [] url
  | ([], some _) => splitRest [] url
  | (pre, some rest) =>
    if pre = s%"http" then splitRest pre rest
    else if pre.all schemeChar && (rest.isEmpty || rest.any fun c => !('0' ≤ c && c ≤ '9')) then
      splitRest (lower pre) rest
    else splitRest [] url

/-- `urllib.parse.urlunsplit` for the schemes with an authority (`http`, `https`, `file`, `ftp`,
...).  Used for urls.py:169-171. -/
def urlunsplit (usesNetloc : Str → Bool) (u : Split) : Str :=
  let a :=
    if u.netloc ≠ [] ∨ (usesNetloc u.scheme ∧ ¬ s%"//" <+: u.path) then
      s%"//" ++ u.netloc ++ (if u.path ≠ [] ∧ u.path.head? ≠ some '/' then '/' :: u.path else u.path)
    else u.path
  let b := if u.scheme ≠ [] then u.scheme ++ ':' :: a else a
  let c := if u.query ≠ [] then b ++ '?' :: u.query else b
  if u.fragment ≠ [] then c ++ '#' :: u.fragment else c

/-- The text before and after the first `c`: `str.partition`.  Used for urls.py:129-157. -/
def partition (c : Char) (s : Str) : Str × Str := ((split1 c s).1, (split1 c s).2.getD [])

/-- Everything after the last `@`, and what stands before it: `netloc.rpartition('@')`.
Used for urls.py:129-157. -/
def userSplit (netloc : Str) : Option Str × Str :=
  match rsplit1 '@' netloc with
  | none => (none, netloc)
  | some (u, h) => (some u, h)

/-- `SplitResult._hostinfo`: host name and port, not yet cleaned.  Used for urls.py:129-157. -/
def hostInfo (netloc : Str) : Str × Str :=
  let h := (userSplit netloc).2
  match split1 '[' h with
  | (_, some br) => ((partition ']' br).1, (partition ':' (partition ']' br).2).2)
  | (_, none) => partition ':' h

/-- `SplitResult.port`: `None` without a port; outside 0..65535 raises `ValueError`.
Used for urls.py:135-138. -/
def portOf (netloc : Str) : Except PyErr (Option Int) :=
  match (hostInfo netloc).2 with
  | [] => .ok none
  | p => match intOf p with
    | .error e => .error e
    | .ok n => if 0 ≤ n ∧ n ≤ 65535 then .ok (some n) else .error .valueError

/-- `decode_idna` of a `str`, urls.py:81-102; `label` decodes one ASCII label (by IDNA, or with
the bytes beyond ASCII left out when that fails). -/
def decodeIdna (label : Str → Str) (domain : Str) : Str :=
  if domain.all (fun c => c.toNat < 128) then join ['.'] ((splitOn '.' domain).map label) else domain

/-- `_safe_urlunquote(s, errors='replace', unsafe)`, urls.py:44-60. -/
def safeUnquoteText (u : List UInt8) (s : Str) : Str := Utf8.decode (Urls.safeUnquote u (Utf8.encode s))

/-- `_safe_urlunquote(s, errors='strict', unsafe)`, urls.py:44-60. -/
def safeUnquoteStrict (u : List UInt8) (s : Str) : Except PyErr Str :=
  Utf8.decodeStrict (Urls.safeUnquote u (Utf8.encode s))

/-- The set kept encoded in user names and passwords, urls.py:143, 149. -/
def authUnsafe : List UInt8 := b%"/:%"

/-- The host part of the new authority, urls.py:129-138.  Simplification: what follows a percent sign in a host name
is made lower case too, which `urlsplit` leaves alone since Python 3.6.4. -/
def hostIri (lower label : Str → Str) (netloc : Str) : Except PyErr Str :=
  let name := lower (hostInfo netloc).1
  let host := if name ≠ [] then decodeIdna label name else []
  let host := if ':' ∈ host then '[' :: host ++ [']'] else host
  match portOf netloc with
  | .error e => .error e
  | .ok none => .ok host
  | .ok (some p) => .ok (if p = 0 then host else host ++ ':' :: intStr p)

/-- User name and password of the new authority, urls.py:140-156: `none` when there is
neither. -/
def authIri (netloc : Str) : Except PyErr (Option Str) :=
  match (userSplit netloc).1 with
  | none => .ok none
  | some info =>
    let name := (split1 ':' info).1
    let pass := (split1 ':' info).2.getD []
    if name = [] ∧ pass = [] then .ok none
    else match safeUnquoteStrict authUnsafe name with
      | .error e => .error e
      | .ok user =>
        if pass = [] then .ok (some user)
        else match safeUnquoteStrict authUnsafe pass with
          | .error e => .error e
          | .ok pw => .ok (some (user ++ ':' :: pw))

/-- The new authority, urls.py:129-157. -/
def netlocIri (lower label : Str → Str) (netloc : Str) : Except PyErr Str :=
  match hostIri lower label netloc with
  | .error e => .error e
  | .ok host => match authIri netloc with
    | .error e => .error e
    | .ok none => .ok host
    | .ok (some a) => .ok (a ++ '@' :: host)

/-- `uri_to_iri`, urls.py:105-171, with `errors='replace'`. -/
def uriToIri (lower label : Str → Str) (usesNetloc : Str → Bool) (uri : Str) : Except PyErr Str :=
  match urlsplit lower uri with
  | .error e => .error e
  | .ok u => match netlocIri lower label u.netloc with
    | .error e => .error e
    | .ok netloc => .ok (urlunsplit usesNetloc ⟨u.scheme, netloc, safeUnquoteText Urls.pathUnsafe u.path,
        safeUnquoteText Urls.queryUnsafe u.query, safeUnquoteText Urls.queryUnsafe u.fragment⟩)

/-- The bytes `urlquote(bytes)` leaves alone by default.  Used for wsgi.py:93-98. -/
def slashSafe : List UInt8 := b%"/"

/-- The bytes left alone in `get_query_string`, wsgi.py:237. -/
def querySafe : List UInt8 := b%":&%=+$!*'(),"

/-- `get_query_string`, wsgi.py:224-237. -/
def getQueryString (environ : List (Str × Str)) : Except PyErr Str :=
  match getBytes (envText environ s%"QUERY_STRING") with
  | .error e => .error e
  | .ok b => .ok (Utf8.latin1 (Urls.quote querySafe b))

/-- Which part of the URL is wanted, requests.py:335-372: `url`, `base_url`, `url_root` and
`host_url`. -/
inductive Part where
  | full | base | root | host
deriving DecidableEq

/-- The text that `get_current_url` joins, wsgi.py:89-102. -/
def currentText (part : Part) (scheme host : Str) (environ : List (Str × Str)) : Except PyErr Str :=
  let start := scheme ++ s%"://" ++ host
  if part = .host then .ok (start ++ s%"/")
  else match getBytes (envText environ s%"SCRIPT_NAME") with
    | .error e => .error e
    | .ok sb =>
      let root := start ++ rstripP (· = '/') (Utf8.latin1 (Urls.quote slashSafe sb)) ++ s%"/"
      if part = .root then .ok root
      else match getBytes (envText environ s%"PATH_INFO") with
        | .error e => .error e
        | .ok pb =>
          let base := root ++ Utf8.latin1 (Urls.quote slashSafe (pb.dropWhile (· = 47)))
          if part = .base then .ok base
          else match getQueryString environ with
            | .error e => .error e
            | .ok qs => .ok (if qs ≠ [] then base ++ '?' :: qs else base)

/-- `get_current_url`, wsgi.py:46-103, as `url`, `base_url`, `url_root` and `host_url` call it. -/
def currentUrl (idna : Str → Except PyErr Bytes) (lower label : Str → Str) (usesNetloc : Str → Bool)
    (trusted : Option (List Str)) (part : Part) (environ : List (Str × Str)) : Except PyErr Str :=
  match Dict.get environ s%"wsgi.url_scheme" with
  | none => .error .keyError
  | some scheme => match Wsgi.getHost idna environ trusted with
    | .error e => .error e
    | .ok host => match currentText part scheme host environ with
      | .error e => .error e
      | .ok t => uriToIri lower label usesNetloc t

end Verif.ReqUrl
