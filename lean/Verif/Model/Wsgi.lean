import Verif.PyMore
import Verif.Dict
/-!
Model of the mount, shared data and host helpers of `/repo/verktyg/wsgi.py`.
-/
namespace Verif.Wsgi
open Verif Verif.Py

/-! ### DispatcherMiddleware, wsgi.py:523-552 -/

/-- The `while` loop, wsgi.py:539-548: the chosen application, `script` and `path_info`.
Mounts are a finite map, of which only the lookups matter.  The fuel bounds the number of
slashes. -/
def mountGo {A} (mounts : Str → Option A) (app : A) : Nat → Str → Str → A × Str × Str
  | 0, script, info => ((mounts script).getD app, script, info)
  | n + 1, script, info =>
    match rsplit1 '/' script with
    | none => ((mounts script).getD app, script, info)
    | some (a, b) =>
      match mounts script with
      | some x => (x, script, info)
      | none => mountGo mounts app n a ('/' :: b ++ info)

/-- `DispatcherMiddleware.__call__`, wsgi.py:538-552: the application called, and the
environ it is called with. -/
def mountCall {A} (mounts : Str → Option A) (app : A) (environ : List (Str × Str)) : A × List (Str × Str) :=
  let path := (Dict.get environ s%"PATH_INFO").getD []
  let r := mountGo mounts app (path.length + 1) path []
  let original := (Dict.get environ s%"SCRIPT_NAME").getD []
  (r.1, Dict.set (Dict.set environ s%"SCRIPT_NAME" (original ++ r.2.1)) s%"PATH_INFO" r.2.2)

/-! ### SharedDataMiddleware, wsgi.py:324-520 (POSIX: `os.sep` is `/`, no `os.altsep`) -/

/-- `posixpath.join(a, b)`.  Used for wsgi.py:419-456. -/
def pathJoin (a b : Str) : Str :=
  if b.head? = some '/' then b
  else if a = [] ∨ a.getLast? = some '/' then a ++ b
  else a ++ '/' :: b

/-- What an export refers to: a file (`get_file_loader`) or a directory
(`get_directory_loader`); package exports join paths as directories do.
Used for wsgi.py:419-456. -/
inductive Export where
  | file (name : Str)
  | dir (name : Str)
  deriving DecidableEq

/-- The loaders, wsgi.py:419-456: the file that would be opened.  `isfile` is the state of
the file system. -/
def load (isfile : Str → Bool) : Export → Option Str → Option Str
  | .file f, _ => some f
  | .dir d, none => if isfile d then some d else none
  | .dir d, some p => if isfile (pathJoin d p) then some (pathJoin d p) else none

/-- The sanitised path, wsgi.py:468-477. -/
def cleanPath (pathInfo : Str) : Str :=
  '/' :: join ['/'] ((splitOn '/' (stripP (· = '/') pathInfo)).filter fun x => x ≠ [] ∧ x ≠ ['.', '.'])

/-- wsgi.py:484-485. -/
def withSlash (sp : Str) : Str := if sp.getLast? = some '/' then sp else sp ++ ['/']

/-- The search loop, wsgi.py:478-490. -/
def search (isfile : Str → Bool) (path : Str) : List (Str × Export) → Option Str
  | [] => none
  | (sp, e) :: es =>
    match (if sp = path then load isfile e none else none) with
    | some f => some f
    | none =>
      match (if withSlash sp <+: path then load isfile e (some (path.drop (withSlash sp).length)) else none) with
      | some f => some f
      | none => search isfile path es

/-- `SharedDataMiddleware.__call__` up to the choice of the file, wsgi.py:468-492: `none`
means the wrapped application is called.  The base name is passed to `is_allowed`. -/
def serve (isfile allowed : Str → Bool) (exports : List (Str × Export)) (pathInfo : Str) : Option Str :=
  match search isfile (cleanPath pathInfo) exports with
  | none => none
  | some f => if allowed f then some f else none

/-! ### Hosts -/

/-- `domain.encode('ascii')`.  Used for /repo/verktyg/urls.py:63-78. -/
def asciiEncode (s : Str) : Option Bytes :=
  if s.all (fun c => c.toNat < 128) then some (s.map fun c => UInt8.ofNat c.toNat) else none

/-- `b'.'.join(parts)`.  Used for /repo/verktyg/urls.py:63-78. -/
def joinDot : List Bytes → Bytes
  | [] => []
  | [x] => x
  | x :: y :: ys => x ++ 46 :: joinDot (y :: ys)

/-- `encode_idna` of a `str`, `/repo/verktyg/urls.py:63-78`; `idna` is the codec for one
label. -/
def encodeIdna (idna : Str → Except PyErr Bytes) (domain : Str) : Except PyErr Bytes :=
  match asciiEncode domain with
  | some b => .ok b
  | none => do
    let parts ← (splitOn '.' domain).mapM idna
    return joinDot parts

/-- `_normalize`, wsgi.py:121-124. -/
def normalizeHost (idna : Str → Except PyErr Bytes) (host : Str) : Except PyErr Bytes :=
  match rsplit1 ':' host with
  | some (a, _) => encodeIdna idna a
  | none => encodeIdna idna host

/-- An entry without its leading dot, wsgi.py:128-129. -/
def entryName (ref : Str) : Str := if ref.head? = some '.' then ref.drop 1 else ref

/-- The loop over the trusted list, wsgi.py:127-138.  `'.' + ref` adds `str` and `bytes`,
which raises `TypeError`. -/
def trustGo (idna : Str → Except PyErr Bytes) (hostname : Bytes) : List Str → Except PyErr Bool
  | [] => .ok false
  | ref :: refs =>
    match normalizeHost idna (entryName ref) with
    | .error e => .error e
    | .ok r =>
      if r = hostname then .ok true
      else if ref.head? = some '.' then .error .typeError
      else trustGo idna hostname refs

/-- `host_is_trusted`, wsgi.py:106-139 (a list given as one string is a list of one). -/
def hostIsTrusted (idna : Str → Except PyErr Bytes) (hostname : Str) (trusted : List Str) : Except PyErr Bool :=
  if hostname = [] then .ok false
  else match normalizeHost idna hostname with
    | .error e => .error e
    | .ok h => trustGo idna h trusted

/-- The host named by the environ, wsgi.py:157-167; missing keys raise `KeyError`. -/
def hostOf (environ : List (Str × Str)) : Except PyErr Str :=
  match Dict.get environ s%"HTTP_X_FORWARDED_HOST" with
  | some v => .ok (strip (split1 ',' v).1)
  | none => match Dict.get environ s%"HTTP_HOST" with
    | some v => .ok v
    | none => match Dict.get environ s%"SERVER_NAME", Dict.get environ s%"wsgi.url_scheme",
          Dict.get environ s%"SERVER_PORT" with
      | some n, some s, some p =>
        .ok (if (s, p) = (s%"https", s%"443") ∨ (s, p) = (s%"http", s%"80") then n else n ++ ':' :: p)
      | _, _, _ => .error .keyError

/-- `get_host`, wsgi.py:142-172. -/
def getHost (idna : Str → Except PyErr Bytes) (environ : List (Str × Str)) (trusted : Option (List Str)) :
    Except PyErr Str :=
  match hostOf environ with
  | .error e => .error e
  | .ok rv =>
    match trusted with
    | none => .ok rv
    | some l =>
      match hostIsTrusted idna rv l with
      | .error e => .error e
      | .ok true => .ok rv
      | .ok false => .error .securityError

/-! ### Content length and input stream -/

/-- `get_content_length`, wsgi.py:175-187. -/
def getContentLength (environ : List (Str × Str)) : Option Int :=
  match Dict.get environ s%"CONTENT_LENGTH" with
  | none => none
  | some v => match intOf v with
    | .ok n => some (max 0 n)
    | .error _ => none

/-- What `get_input_stream` (wsgi.py:190-222) returns. -/
inductive Input where
  /-- the stream of the server, as it is -/
  | raw
  /-- an empty stream -/
  | empty
  /-- the stream of the server limited to so many bytes -/
  | limited (n : Int)
  deriving DecidableEq

/-- `get_input_stream`, wsgi.py:190-222.  (`BytesIO()` is a true value.) -/
def getInputStream (environ : List (Str × Str)) (terminated safe : Bool) : Input :=
  if terminated then .raw
  else match getContentLength environ with
    | none => if safe then .empty else .raw
    | some n => .limited n

end Verif.Wsgi
