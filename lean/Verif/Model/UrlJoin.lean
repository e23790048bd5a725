import Verif.Model.Iri
import Verif.Model.Response
/-!
Model of `urllib.parse.urljoin` of Python 3.6, as used by `/repo/verktyg/routing.py:1378, 1560` and
`/repo/verktyg/responses.py:541`.
-/
namespace Verif.UrlJoin
open Verif Verif.Py Verif.ReqUrl

/-- `urllib.parse.uses_relative`.  Used for responses.py:541. -/
def usesRelative : List Str :=
  [[], s%"ftp", s%"http", s%"gopher", s%"nntp", s%"imap", s%"wais", s%"file", s%"https", s%"shttp", s%"mms",
    s%"prospero", s%"rtsp", s%"rtspu", s%"sftp", s%"svn", s%"svn+ssh", s%"ws", s%"wss"]

/-- `urllib.parse.uses_params`.  Used for responses.py:541. -/
def usesParams : List Str :=
  [[], s%"ftp", s%"hdl", s%"prospero", s%"http", s%"imap", s%"https", s%"shttp", s%"rtsp", s%"rtspu", s%"sip",
    s%"sips", s%"mms", s%"sftp", s%"tel"]

/-- `urllib.parse.uses_netloc` but for the empty scheme, which `urlunsplit` leaves out.
Used for responses.py:541. -/
def netlocSchemes : List Str :=
  [s%"ftp", s%"http", s%"gopher", s%"nntp", s%"telnet", s%"imap", s%"wais", s%"file", s%"mms", s%"https", s%"shttp",
    s%"snews", s%"prospero", s%"rtsp", s%"rtspu", s%"rsync", s%"svn", s%"svn+ssh", s%"sftp", s%"nfs", s%"git",
    s%"git+ssh", s%"ws", s%"wss"]

/-- Membership in the list above.  Used for responses.py:541. -/
def usesNetloc (scheme : Str) : Bool := decide (scheme ∈ netlocSchemes)

/-- `_splitparams`: the parameters of the last segment.  Used for responses.py:541. -/
def splitParams (path : Str) : Str × Str :=
  match rsplit1 '/' path with
  | none => ((split1 ';' path).1, (split1 ';' path).2.getD [])
  | some (dir, last) => (dir ++ '/' :: (split1 ';' last).1, (split1 ';' last).2.getD [])

/-- The result of `urlparse`.  Used for responses.py:541. -/
structure Parsed where
  scheme : Str
  netloc : Str
  path : Str
  params : Str
  query : Str
  fragment : Str
deriving DecidableEq

/-- `urlparse(url, scheme)`.  Used for responses.py:541. -/
def urlparse (lower : Str → Str) (url scheme : Str) : Except PyErr Parsed :=
  match urlsplit lower url with
  | .error e => .error e
  | .ok u =>
    let s := if u.scheme = [] then scheme else u.scheme
    let pp := if s ∈ usesParams then splitParams u.path else (u.path, [])
    .ok ⟨s, u.netloc, pp.1, pp.2, u.query, u.fragment⟩

/-- `urlunparse`.  Used for responses.py:541. -/
def urlunparse (p : Parsed) : Str :=
  urlunsplit usesNetloc ⟨p.scheme, p.netloc, if p.params ≠ [] then p.path ++ ';' :: p.params else p.path, p.query, p.fragment⟩

/-- `segments[1:-1] = filter(None, segments[1:-1])`.  Used for responses.py:541. -/
def squeeze : List Str → List Str
  | [] => []
  | [x] => [x]
  | x :: y :: rest => x :: ((y :: rest).dropLast.filter (· ≠ [])) ++ [(y :: rest).getLastD []]

/-- The removal of the segments `.` and `..`.  Used for responses.py:541. -/
def resolve (segs : List Str) : List Str :=
  segs.foldl (fun acc s => if s = s%".." then acc.dropLast else if s = s%"." then acc else acc ++ [s]) []

/-- The segments of the new path: those of the base without its last one, unless the path starts
with a slash.  Used for responses.py:541. -/
def segments (bpath path : Str) : List Str :=
  if path.head? = some '/' then splitOn '/' path
  else
    let base := splitOn '/' bpath
    squeeze ((if base.getLastD [] ≠ [] then base.dropLast else base) ++ splitOn '/' path)

/-- The new path.  Used for responses.py:541. -/
def joinPath (bpath path : Str) : Str :=
  let segs := segments bpath path
  let out := resolve segs ++ (if segs.getLastD [] = s%"." ∨ segs.getLastD [] = s%".." then [[]] else [])
  if join s%"/" out = [] then s%"/" else join s%"/" out

/-- `urljoin(base, url)`: every scheme that uses relative addresses has an authority.
Used for routing.py:1378, 1560 and responses.py:541. -/
def urljoin (lower : Str → Str) (base url : Str) : Except PyErr Str :=
  if base = [] then .ok url
  else if url = [] then .ok base
  else
    match urlparse lower base [] with
    | .error e => .error e
    | .ok b =>
      match urlparse lower url b.scheme with
      | .error e => .error e
      | .ok u =>
        if u.scheme ≠ b.scheme ∨ u.scheme ∉ usesRelative then .ok url
        else if u.netloc ≠ [] then .ok (urlunparse u)
        else if u.path = [] ∧ u.params = [] then
          .ok (urlunparse ⟨u.scheme, b.netloc, b.path, b.params, if u.query = [] then b.query else u.query, u.fragment⟩)
        else .ok (urlunparse ⟨u.scheme, b.netloc, joinPath b.path u.path, u.params, u.query, u.fragment⟩)

/-- `iri_to_uri(get_current_url(environ, root_only=True))`, responses.py:537-540. -/
def rootUri (idna : Str → Except PyErr Bytes) (lower label : Str → Str) (environ : List (Str × Str)) : Except PyErr Str :=
  match currentUrl idna lower label usesNetloc none .root environ with
  | .error e => .error e
  | .ok url => Iri.iriToUri idna lower usesNetloc url

/-- The location made absolute, responses.py:536-541; `autocorrect` is
`autocorrect_location_header`. -/
def absoluteLocation (autocorrect : Bool) (idna : Str → Except PyErr Bytes) (lower label : Str → Str)
    (environ : List (Str × Str)) (location : Str) : Except PyErr Str :=
  if autocorrect then
    match rootUri idna lower label environ with
    | .error e => .error e
    | .ok base => urljoin lower base location
  else .ok location

/-- `get_wsgi_headers(environ)` with the conversions it calls, responses.py:496-573. -/
def sentHeaders (cfg : Response.Cfg) (autocorrect : Bool) (idna : Str → Except PyErr Bytes) (label : Str → Str)
    (environ : List (Str × Str)) (r : Response.Resp) : Except PyErr Headers.HList :=
  Response.wsgiHeaders cfg (Iri.iriToUri idna cfg.lower usesNetloc)
    (absoluteLocation autocorrect idna cfg.lower label environ) r

end Verif.UrlJoin
