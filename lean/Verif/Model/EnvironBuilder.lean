import Verif.Model.Iri
import Verif.Model.Multipart
import Verif.Model.Headers
import Verif.Model.Range
import Verif.Model.Combined
import Verif.Model.EnvironHeaders
/-!
Model of `EnvironBuilder`, /repo/verktyg/test.py:237-628.  Text entries of the environ and the
bytes of `wsgi.input` are modelled; flags and streams for errors are not.  The character set is
UTF-8.
-/
namespace Verif.Builder
open Verif Verif.Py Verif.ReqUrl Verif.Iri

/-- The attributes of a builder, test.py:317-357.  A stream is its content and the position. -/
structure Builder where
  method : Str
  scheme : Str
  host : Str
  scriptRoot : Str
  path : Str
  queryString : Option Str
  args : Option (MD.MDict Str Str)
  headers : Headers.HList
  stream : Option (Bytes × Nat)
  form : Option (MD.MDict Str Multipart.Value)
  files : Option (MD.MDict Str Multipart.Value)
  base : List (Str × Str)
  overrides : List (Str × Str)

/-- The `query_string` argument.  Used for test.py:331-340. -/
inductive Query where
  | missing
  | text (s : Str)
  | args (d : MD.MDict Str Str)

/-- The `data` argument, test.py:359-376: text, bytes, or the pairs that `_iter_data` makes of a
dict (test.py:189-206).  Files among them are given as the `FileStorage` that `add_file` makes of
them (test.py:214-234). -/
inductive Data where
  | missing
  | text (s : Str)
  | bytes (b : Bytes)
  | pairs (l : List (Str × Multipart.Value))

/-- The setter of `base_url`, test.py:390-403. -/
def setBaseUrl (lower : Str → Str) (b : Builder) : Option Str → Except PyErr Builder
  | none => .ok { b with scheme := s%"http", host := s%"localhost", scriptRoot := [] }
  | some v => match urlsplit lower v with
    | .error e => .error e
    | .ok u =>
      if u.query ≠ [] ∨ u.fragment ≠ [] then .error .valueError
      else .ok { b with scheme := u.scheme, host := u.netloc, scriptRoot := rstripP (· = '/') u.path }

/-- The getter of `base_url`, test.py:385-388. -/
def baseUrl (usesNetloc : Str → Bool) (b : Builder) : Str :=
  rstripP (· = '/') (urlunsplit usesNetloc ⟨b.scheme, b.host, b.scriptRoot, [], []⟩) ++ s%"/"

/-- `bool(d)` for an optional dict.  Used for test.py:414-417. -/
def truthy (d : Option (MD.MDict Str Multipart.Value)) : Bool := !(d.getD []).isEmpty

/-- The getter of `content_type`, test.py:411-419. -/
def contentType (lower : Str → Str) (b : Builder) : Option Str :=
  match Headers.get lower b.headers s%"Content-Type" with
  | some t => some t
  | none => match b.stream with
    | some _ => none
    | none =>
      if truthy b.files then some s%"multipart/form-data"
      else if truthy b.form then some s%"application/x-www-form-urlencoded"
      else none

/-- The setters of `content_type` and `content_length`, test.py:421-425, 436-440. -/
def setHeader (lower : Str → Str) (b : Builder) (name : Str) (value : Option Str) : Builder × Except PyErr Unit :=
  match value with
  | none => ({ b with headers := Headers.delKey lower b.headers name }, .ok ())
  | some v => match Headers.set lower b.headers name v [] with
    | (h, r) => ({ b with headers := h }, r)

/-- The getter of `content_length`, test.py:433-434. -/
def contentLength (lower : Str → Str) (b : Builder) : Option Int :=
  Headers.getTyped lower b.headers s%"Content-Length" (fun s => (intOf s).toOption) none

/-- The getter of `form`, test.py:451-458: a missing dict is made. -/
def getForm (b : Builder) : Builder × Except PyErr (MD.MDict Str Multipart.Value) :=
  match b.stream with
  | some _ => (b, .error .attributeError)
  | none => ({ b with form := some (b.form.getD []) }, .ok (b.form.getD []))

/-- The getter of `files`, test.py:451-458. -/
def getFiles (b : Builder) : Builder × Except PyErr (MD.MDict Str Multipart.Value) :=
  match b.stream with
  | some _ => (b, .error .attributeError)
  | none => ({ b with files := some (b.files.getD []) }, .ok (b.files.getD []))

/-- The setter of `form`, test.py:460-462. -/
def setForm (b : Builder) (d : MD.MDict Str Multipart.Value) : Builder := { b with stream := none, form := some d }

/-- The setter of `files`, test.py:460-462. -/
def setFiles (b : Builder) (d : MD.MDict Str Multipart.Value) : Builder := { b with stream := none, files := some d }

/-- The setter of `input_stream`, test.py:476-478. -/
def setStream (b : Builder) (s : Option (Bytes × Nat)) : Builder := { b with stream := s, form := none, files := none }

/-- `urlencode(d)` of a `MultiDict`: it takes `d.items()`, the first value of each key.
Used for test.py:488. -/
def encodeArgs (d : MD.MDict Str Str) : Except PyErr Str :=
  match MD.items d with
  | .error e => .error e
  | .ok ps => .ok (urlencode ps)

/-- The getter of `query_string`, test.py:485-490. -/
def getQueryString (b : Builder) : Except PyErr Str :=
  match b.queryString with
  | some s => .ok s
  | none => match b.args with
    | some d => encodeArgs d
    | none => .ok []

/-- The setter of `query_string`, test.py:492-494. -/
def setQueryString (b : Builder) (s : Option Str) : Builder := { b with queryString := s, args := none }

/-- The getter of `args`, test.py:501-506. -/
def getArgs (b : Builder) : Builder × Except PyErr (MD.MDict Str Str) :=
  match b.queryString with
  | some _ => (b, .error .attributeError)
  | none => ({ b with args := some (b.args.getD []) }, .ok (b.args.getD []))

/-- The setter of `args`, test.py:508-510. -/
def setArgs (b : Builder) (d : MD.MDict Str Str) : Builder := { b with queryString := none, args := some d }

/-- `server_name`, test.py:516-519. -/
def serverName (b : Builder) : Str := (split1 ':' b.host).1

/-- `server_port`, test.py:521-529: `int` raises `ValueError` for superscript digits. -/
def serverPort (b : Builder) : Except PyErr Int :=
  match (split1 ':' b.host).2 with
  | some (c :: cs) => if (c :: cs).all Range.isDigit then intOf (c :: cs) else .ok (if b.scheme = s%"https" then 443 else 80)
  | _ => .ok (if b.scheme = s%"https" then 443 else 80)

/-- Bytes as `data`, test.py:364-367. -/
def setData (lower : Str → Str) (b : Builder) (d : Bytes) : Builder :=
  let b := setStream b (some (d, 0))
  match contentLength lower b with
  | some _ => b
  | none => (setHeader lower b s%"Content-Length" (some (intStr d.length))).1

/-- A dict as `data`, test.py:369-383: files are added to `files`, other values to `form`. -/
def addPairs (b : Builder) (l : List (Str × Multipart.Value)) : Builder :=
  l.foldl (fun b p => match p.2 with
    | .file _ => { b with files := some (MD.add (b.files.getD []) p.1 p.2) }
    | _ => { b with form := some (MD.add (b.form.getD []) p.1 p.2) }) b

/-- Path and query of the arguments, test.py:324-325. -/
def splitQuery (path : Str) : Query → Str × Query
  | .missing => match split1 '?' path with
    | (p, some q) => (p, .text q)
    | (_, none) => (path, .missing)
  | q => (path, q)

/-- The base given to a builder, test.py:328-330. -/
def fixBase (fix : Str → Except PyErr Str) : Option Str → Except PyErr (Option Str)
  | none => .ok none
  | some u => (fix u).map some

/-- The query given to a builder, test.py:331-338. -/
def withQuery (b : Builder) : Query → Builder
  | .missing => setArgs b []
  | .text s => setQueryString b (some s)
  | .args d => setArgs b d

/-- The content type given to a builder, test.py:345-346. -/
def withType (lower : Str → Str) (b : Builder) : Option Str → Except PyErr Builder
  | none => .ok b
  | some t => match setHeader lower b s%"Content-Type" (some t) with
    | (b, .ok _) => .ok b
    | (_, .error e) => .error e

/-- The data given to a builder, test.py:359-376; `taken` when there is an input stream. -/
def withData (lower : Str → Str) (b : Builder) (taken : Bool) : Data → Except PyErr Builder
  | .missing => .ok b
  | .text s => if s = [] then .ok b else if taken then .error .typeError else .ok (setData lower b (Utf8.encode s))
  | .bytes s => if s = [] then .ok b else if taken then .error .typeError else .ok (setData lower b s)
  | .pairs l => if l = [] then .ok b else if taken then .error .typeError else .ok (addPairs b l)

/-- `__init__`, test.py:317-376: `iri` is `iri_to_uri`, `fix` is `url_fix`. -/
def init (lower : Str → Str) (iri fix : Str → Except PyErr Str) (path : Str) (base : Option Str) (query : Query)
    (method : Str) (headers : Headers.HList) (contentType : Option Str) (stream : Option (Bytes × Nat))
    (contentLength : Option Int) (data : Data) (environBase environOverrides : List (Str × Str)) : Except PyErr Builder :=
  match iri (splitQuery path query).1 with
  | .error e => .error e
  | .ok p => match fixBase fix base with
    | .error e => .error e
    | .ok base =>
      match setBaseUrl lower ⟨method, [], [], [], p, none, none, headers, none, none, none, environBase, environOverrides⟩ base with
      | .error e => .error e
      | .ok b => match withType lower (withQuery b (splitQuery path query).2) contentType with
        | .error e => .error e
        | .ok b =>
          let b := setStream b stream
          let b := (setHeader lower b s%"Content-Length" (contentLength.map intStr)).1
          withData lower b stream.isSome data

/-- What `get_environ` returns: the text entries and the bytes that `wsgi.input` still has.
Used for test.py:555-616. -/
structure Environ where
  vars : List (Str × Str)
  input : Bytes
deriving DecidableEq

/-- `dict.update`.  Used for test.py:581-614. -/
def update (d : List (Str × Str)) (e : List (Str × Str)) : List (Str × Str) := e.foldl (fun d p => Dict.set d p.1 p.2) d

/-- `_path_encode`, test.py:585-588. -/
def pathEncode (s : Str) : Str := encodingDance (unquote s)

/-- The pairs of a form that `urlencode` sends; a file among them is not covered.
Used for test.py:574. -/
def formPairs (d : MD.MDict Str Multipart.Value) : Except PyErr (List (Str × Str)) :=
  d.mapM fun p => match p.2 with
    | [] => .error .indexError
    | .text s :: _ => .ok (p.1, s)
    | _ :: _ => .error .notImplemented

/-- The body, its length and content type, test.py:557-579. -/
def body (lower : Str → Str) (guess : Str → Option Str) (boundary : Str) (b : Builder) :
    Except PyErr (Bytes × Option Int × Option Str) :=
  match b.stream with
  | some (data, pos) => .ok (data.drop pos, some ((data.length : Int) - pos), contentType lower b)
  | none =>
    if contentType lower b = some s%"multipart/form-data" then
      match Multipart.streamEncode guess true 512000 boundary (CMD.lists [b.form.getD [], b.files.getD []]) with
      | .error e => .error e
      | .ok (data, n) => .ok (data, some n, some (s%"multipart/form-data; boundary=\"" ++ boundary ++ s%"\""))
    else if contentType lower b = some s%"application/x-www-form-urlencoded" then
      match formPairs (b.form.getD []) with
      | .error e => .error e
      | .ok ps =>
        let data := Utf8.encode (urlencode ps)
        .ok (data, some data.length, some s%"application/x-www-form-urlencoded")
    else .ok ([], contentLength lower b, contentType lower b)

/-- The text entries made by `get_environ`, test.py:592-610. -/
def entries (b : Builder) (qs : Str) (port : Int) (type : Option Str) (length : Option Int) : List (Str × Str) :=
  [(s%"REQUEST_METHOD", b.method),
   (s%"SCRIPT_NAME", pathEncode b.scriptRoot),
   (s%"PATH_INFO", pathEncode b.path),
   (s%"QUERY_STRING", encodingDance qs),
   (s%"SERVER_NAME", serverName b),
   (s%"SERVER_PORT", intStr port),
   (s%"HTTP_HOST", b.host),
   (s%"SERVER_PROTOCOL", s%"HTTP/1.1"),
   (s%"CONTENT_TYPE", type.getD []),
   (s%"CONTENT_LENGTH", if length.getD 0 = 0 then s%"0" else intStr (length.getD 0)),
   (s%"wsgi.url_scheme", b.scheme)]

/-- The header entries, test.py:611-612. -/
def headerEntries (upper : Str → Str) (h : Headers.HList) : List (Str × Str) :=
  h.map fun p => (s%"HTTP_" ++ (upper p.1).map (fun c => if c = '-' then '_' else c), p.2)

/-- `get_environ`, test.py:555-616. -/
def getEnviron (upper lower : Str → Str) (guess : Str → Option Str) (boundary : Str) (b : Builder) : Except PyErr Environ := do
  let bd ← body lower guess boundary b
  let qs ← getQueryString b
  let port ← serverPort b
  return ⟨update (update (update (update [] b.base) (entries b qs port bd.2.2 bd.2.1)) (headerEntries upper b.headers)) b.overrides, bd.1⟩

end Verif.Builder
