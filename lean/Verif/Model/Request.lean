import Verif.Model.Wsgi
import Verif.Model.Stream
/-!
Model of reading the body of a request: `/repo/verktyg/requests.py:43-50, 198-206, 236-247, 273-293`,
with `cached_property` (`/repo/verktyg/utils.py:28-67`).
-/
namespace Verif.Request
open Verif Verif.Wsgi Verif.Stream

/-- The object behind the cached property `stream`.  Used for requests.py:236-247. -/
inductive Strm where
  | raw
  | empty
  | limited (pos limit : Int)
deriving DecidableEq

/-- A request: the attribute `shallow`, the textual environ, whether
`wsgi.input_terminated` is set, the server's stream, the cached property `stream`, and
`_cached_data`.  Models requests.py:43-293. -/
structure Req where
  shallow : Bool
  environ : List (Str × Str)
  terminated : Bool
  src : Src
  stream : Option Strm
  cached : Option Bytes
deriving DecidableEq

/-- A new request, requests.py:150-156. -/
def new (shallow : Bool) (environ : List (Str × Str)) (terminated : Bool) (src : Src) : Req :=
  ⟨shallow, environ, terminated, src, none, none⟩

/-- The function of the property `stream`, requests.py:236-247. -/
def openStream (r : Req) : Except PyErr Strm :=
  if r.shallow then .error .runtimeError
  else .ok (match getInputStream r.environ r.terminated true with
    | .raw => .raw
    | .empty => .empty
    | .limited n => .limited 0 n)

/-- Access to `self.stream`: the cached value, or compute and cache it, utils.py:59-67. -/
def getStream (r : Req) : Req × Except PyErr Strm :=
  match r.stream with
  | some s => (r, .ok s)
  | none =>
    match openStream r with
    | .error e => (r, .error e)
    | .ok s => ({ r with stream := some s }, .ok s)

/-- `self.stream.read(size)`.  Used for requests.py:273-293. -/
def streamRead (r : Req) (size : Option Int) : Req × Except PyErr Bytes :=
  match getStream r with
  | (r', .error e) => (r', .error e)
  | (r', .ok .empty) => (r', .ok [])
  | (r', .ok .raw) =>
    match r'.src.read (size.getD (-1)) with
    | (none, src) => ({ r' with src := src }, .error .clientDisconnected)
    | (some b, src) => ({ r' with src := src }, .ok b)
  | (r', .ok (.limited pos limit)) =>
    let s := Stream.read ⟨r'.src, pos, limit⟩ size
    ({ r' with src := s.1.src, stream := some (.limited s.1.pos s.1.limit) }, s.2)

/-- What `get_data` returns: bytes, or text with `as_text=True`.  Used for requests.py:290-293. -/
inductive Data where
  | bytes (b : Bytes)
  | text (s : Str)
deriving DecidableEq

/-- The conversion at the end of `get_data`, requests.py:290-293. -/
def conv (decode : Bytes → Except PyErr Str) (asText : Bool) (b : Bytes) : Except PyErr Data :=
  if asText then
    match decode b with
    | .error e => .error e
    | .ok s => .ok (.text s)
  else .ok (.bytes b)

/-- `get_data(cache, as_text)`, requests.py:273-293. -/
def getData (decode : Bytes → Except PyErr Str) (r : Req) (cache asText : Bool) : Req × Except PyErr Data :=
  match r.cached with
  | some b => (r, conv decode asText b)
  | none =>
    match streamRead r none with
    | (r', .error e) => (r', .error e)
    | (r', .ok b) => (if cache then { r' with cached := some b } else r', conv decode asText b)

/-- `_get_stream_for_parsing().read()`, requests.py:198-206. -/
def parseRead (r : Req) : Req × Except PyErr Bytes :=
  match r.cached with
  | some b => (r, .ok b)
  | none => streamRead r none

/-- Calls on a request.  Models requests.py:43-293. -/
inductive Op where
  | getData (cache asText : Bool)
  | read (size : Option Int)
  | parse

/-- Effect of one call.  Models requests.py:43-293. -/
def step (decode : Bytes → Except PyErr Str) (r : Req) : Op → Req
  | .getData c t => (getData decode r c t).1
  | .read n => (streamRead r n).1
  | .parse => (parseRead r).1

/-- A history of calls.  Models requests.py:43-293. -/
def run (decode : Bytes → Except PyErr Str) (r : Req) (ops : List Op) : Req := ops.foldl (step decode) r

end Verif.Request
