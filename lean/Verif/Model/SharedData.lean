import Verif.Model.Wsgi
import Verif.Model.RequestUrl
import Verif.Model.Descriptors
/-!
Model of what `SharedDataMiddleware` sends, `/repo/verktyg/wsgi.py` lines 381-417 and 459-520.
-/
namespace Verif.SharedData
open Verif Verif.Date

/-- What the interpreter and the library know: `fnmatch(name, pattern)`, `mimetypes.guess_type(name)[0]`, `mktime` of
a broken down time, and `adler32` of the encoded name.  Used for wsgi.py:400-402, 459-466 and 494. -/
structure Lib where
  fnmatch : Str → Str → Bool
  guess : Str → Option Str
  mktime : DateTime → Int
  adler : Str → Nat

/-- An opened file: its contents, the time of its last change in microseconds since 1970, and the size that the
opener tells (`getsize`, or 0 for package data which are not in the file system).
Models wsgi.py:412-417 and 438-445. -/
structure Opened where
  data : Bytes
  mtime : Int
  size : Nat

/-- The state of the file system.  Used for wsgi.py:412-457. -/
structure World where
  isfile : Str → Bool
  opened : Str → Opened

/-- The arguments of `SharedDataMiddleware`, wsgi.py:381-403.  Simplification: `disallow` is one pattern. -/
structure Shared where
  exports : List (Str × Wsgi.Export)
  disallow : Option Str := none
  cache : Bool := true
  timeout : Int := 43200
  fallback : Str := s%"text/plain"

/-- `os.path.basename`.  Used for wsgi.py:420 and 455. -/
def basename (path : Str) : Str :=
  match Py.rsplit1 '/' path with
  | some (_, b) => b
  | none => path

/-- `is_allowed`, wsgi.py:400-410. -/
def isAllowed (L : Lib) (cfg : Shared) (name : Str) : Bool :=
  match cfg.disallow with
  | none => true
  | some p => !L.fnmatch name p

/-- `generate_etag`, wsgi.py:459-466. -/
def generateEtag (L : Lib) (mtime : DateTime) (size : Nat) (name : Str) : Str :=
  s%"wzsdm-" ++ (Py.intStr (L.mktime mtime) ++ '-' :: (Py.natStr size ++ '-' :: Py.natStr (L.adler name)))

/-- What happens to a request: the wrapped application is called, there is an answer (with the body that is sent, and
whether the file was closed at once), an exception, or no end.  Used for wsgi.py:468-520. -/
inductive Outcome where
  | app
  | reply (status : Str) (headers : List (Str × Str)) (body : Bytes) (closed : Bool)
  | failed (e : PyErr)
  | hangs
  deriving DecidableEq

/-- Whether the copy of the client is still good, wsgi.py:506 with `is_resource_modified` (`REQUEST_METHOD` has to
be there).  The time of the last change has microseconds.  Used for wsgi.py:506. -/
def modified (fuel : Nat) (environ : List (Str × Str)) (etag : Str) (mtime : Int) : Except PyErr (Option Bool) :=
  match Dict.get environ s%"REQUEST_METHOD" with
  | none => .error .keyError
  | some method =>
    match Desc.dateMicros (Dict.get environ s%"HTTP_IF_MODIFIED_SINCE") with
    | .error e => .error e
    | .ok ims =>
      Etag.isResourceModified (D := Unit) (fun _ => []) fuel method (Dict.get environ s%"HTTP_IF_NONE_MATCH") ims (some etag) none
        (some mtime)

/-- The headers that every file has, wsgi.py:514-518. -/
def fileHeaders (L : Lib) (cfg : Shared) (name : Str) (size : Nat) (mtime : DateTime) : List (Str × Str) :=
  [(s%"Content-Type", (L.guess name).getD cfg.fallback), (s%"Content-Length", Py.natStr size),
    (s%"Last-Modified", httpDate mtime)]

/-- The answer for a file, wsgi.py:494-520.  `now` is the time in seconds since 1970.  Simplifications: a time that
`datetime` does not have gives `ValueError`; the body is what a server gets from `wrap_file` in the end
(`FileWrapper` is modelled in WrapFile). -/
def answer (L : Lib) (cfg : Shared) (fuel : Nat) (now : Int) (environ : List (Str × Str)) (name : Str) (o : Opened) : Outcome :=
  match gmtime (o.mtime / 1000000), gmtime now, gmtime (now + cfg.timeout) with
  | some mtime, some date, some expires =>
    if cfg.cache then
      let etag := generateEtag L mtime o.size name
      let headers := [(s%"Date", httpDate date), (s%"Etag", '"' :: (etag ++ s%"\"")),
        (s%"Cache-Control", s%"max-age=" ++ Py.intStr cfg.timeout ++ s%", public")]
      match modified fuel environ etag (mtime.total * 1000000 + o.mtime % 1000000) with
      | .error e => .failed e
      | .ok none => .hangs
      | .ok (some false) => .reply s%"304 Not Modified" headers [] true
      | .ok (some true) =>
        .reply s%"200 OK" (headers ++ (s%"Expires", httpDate expires) :: fileHeaders L cfg name o.size mtime) o.data false
    else
      .reply s%"200 OK" ([(s%"Date", httpDate date), (s%"Cache-Control", s%"public")] ++ fileHeaders L cfg name o.size mtime) o.data
        false
  | _, _, _ => .failed .valueError

/-- `SharedDataMiddleware.__call__`, wsgi.py:468-520. -/
def call (L : Lib) (w : World) (cfg : Shared) (fuel : Nat) (now : Int) (environ : List (Str × Str)) : Outcome :=
  match ReqUrl.decodingDance (ReqUrl.envText environ s%"PATH_INFO") with
  | .error e => .failed e
  | .ok path =>
    match Wsgi.search w.isfile (Wsgi.cleanPath path) cfg.exports with
    | none => .app
    | some f => if isAllowed L cfg (basename f) then answer L cfg fuel now environ (basename f) (w.opened f) else .app

end Verif.SharedData
