import Verif.Model.Request
import Verif.Model.RequestUrl
/-!
Model of several request objects made from one WSGI environ, as middleware and the application
it wraps make them: `/repo/verktyg/requests.py:149-155, 236-438`, with `cached_property`
(`/repo/verktyg/utils.py:28-67`).  The environ holds text; the server's stream and the flag
`wsgi.input_terminated` are kept beside it.
-/
namespace Verif.Share
open Verif Verif.ReqUrl Verif.Stream

/-- The attributes of a request that are computed from the textual environ.  All but the last
two are cached properties.  Models requests.py:257-271, 310-432. -/
inductive Attr where
  | args | path | fullPath | scriptRoot | url (part : Part) | host | queryString | method | accessRoute
  | remoteUser | scheme | remoteAddr | isXhr
deriving DecidableEq

/-- The value of an attribute.  The parameters are represented by the pairs given to their
storage.  Models requests.py:257-271, 310-432. -/
inductive Val where
  | text (s : Str)
  | opt (s : Option Str)
  | texts (l : List Str)
  | pairs (l : List (Str × Str))
  | flag (b : Bool)
deriving DecidableEq

/-- What is taken from Python (case mapping, IDNA, the schemes with an authority, whether
queries split at `;`) and from the class of the requests (`trusted_hosts`).
Used for requests.py:257-271, 310-432. -/
structure Lib where
  upper : Str → Str
  lower : Str → Str
  label : Str → Str
  idna : Str → Except PyErr Bytes
  usesNetloc : Str → Bool
  trusted : Option (List Str)
  semi : Bool

/-- A request object: `shallow`, the values in its `__dict__`, the cached `stream` and
`_cached_data`.  Models requests.py:149-155. -/
structure Obj where
  shallow : Bool
  dict : List (Attr × Val)
  stream : Option Request.Strm
  data : Option Bytes
deriving DecidableEq

/-- The environ, the server's stream, the request objects in the order in which they were made,
and which of them is `environ['verktyg.request']`.  Models requests.py:149-155. -/
structure World where
  environ : List (Str × Str)
  terminated : Bool
  src : Src
  reqs : List Obj
  current : Option Nat
deriving DecidableEq

/-- `BaseRequest(environ, populate_request, shallow)`, requests.py:149-155. -/
def make (w : World) (populate shallow : Bool) : World :=
  { w with reqs := w.reqs ++ [⟨shallow, [], none, none⟩]
           current := if populate && !shallow then some w.reqs.length else w.current }

/-- `cached_property.__get__`, utils.py:57-67: the value in the `__dict__`, or compute and
keep it.  A function that raises leaves nothing behind. -/
def cachedGet (dict : List (Attr × Val)) (a : Attr) (func : Except PyErr Val) : List (Attr × Val) × Except PyErr Val :=
  match Dict.get dict a with
  | some v => (dict, .ok v)
  | none => match func with
    | .error e => (dict, .error e)
    | .ok v => (Dict.set dict a v, .ok v)

/-- `request.path`, requests.py:310-319. -/
def readPath (environ : List (Str × Str)) (dict : List (Attr × Val)) : List (Attr × Val) × Except PyErr Val :=
  cachedGet dict .path ((path environ).map .text)

/-- `request.query_string`, requests.py:380-384. -/
def readQuery (environ : List (Str × Str)) (dict : List (Attr × Val)) : List (Attr × Val) × Except PyErr Val :=
  cachedGet dict .queryString ((queryString environ).map .text)

/-- `self.path + u'?' + self.query_string` of two values.  Values other than text cannot occur
there.  Used for requests.py:321-324. -/
def joinQuery : Val → Val → Except PyErr Val
  | .text p, .text q => .ok (.text (p ++ '?' :: q))
  | _, _ => .error .typeError

/-- `request.full_path`, requests.py:321-324: computing it reads, and so keeps, `path` and
`query_string`. -/
def readFull (environ : List (Str × Str)) (dict : List (Attr × Val)) : List (Attr × Val) × Except PyErr Val :=
  match Dict.get dict .fullPath with
  | some v => (dict, .ok v)
  | none =>
    match readPath environ dict with
    | (d1, .error e) => (d1, .error e)
    | (d1, .ok p) =>
      match readQuery environ d1 with
      | (d2, .error e) => (d2, .error e)
      | (d2, .ok q) =>
        match joinQuery p q with
        | .error e => (d2, .error e)
        | .ok v => (Dict.set d2 .fullPath v, .ok v)

/-- Reading an attribute of a request object, requests.py:257-271, 310-432. -/
def readAttr (lib : Lib) (environ : List (Str × Str)) (dict : List (Attr × Val)) : Attr →
    List (Attr × Val) × Except PyErr Val
  | .args => cachedGet dict .args ((argPairs lib.semi environ).map .pairs)
  | .path => readPath environ dict
  | .fullPath => readFull environ dict
  | .scriptRoot => cachedGet dict .scriptRoot ((scriptRoot environ).map .text)
  | .url part => cachedGet dict (.url part)
      ((currentUrl lib.idna lib.lower lib.label lib.usesNetloc lib.trusted part environ).map .text)
  | .host => cachedGet dict .host ((Wsgi.getHost lib.idna environ lib.trusted).map .text)
  | .queryString => readQuery environ dict
  | .method => cachedGet dict .method (.ok (.text (method lib.upper environ)))
  | .accessRoute => cachedGet dict .accessRoute (.ok (.texts (accessRoute environ)))
  | .remoteUser => cachedGet dict .remoteUser (.ok (.opt (Dict.get environ s%"REMOTE_USER")))
  | .scheme => cachedGet dict .scheme (.ok (.opt (Dict.get environ s%"wsgi.url_scheme")))
  | .remoteAddr => (dict, .ok (.opt (Dict.get environ s%"REMOTE_ADDR")))
  | .isXhr => (dict, .ok (.flag (isXhr lib.lower environ)))

/-- Reading an attribute of the `i`-th request object: the world afterwards and the answer
(`none` if there is no such object).  Models requests.py:257-271, 310-432. -/
def ask (lib : Lib) (w : World) (i : Nat) (a : Attr) : World × Option (Except PyErr Val) :=
  match w.reqs[i]? with
  | none => (w, none)
  | some o =>
    let r := readAttr lib w.environ o.dict a
    ({ w with reqs := w.reqs.set i { o with dict := r.1 } }, some r.2)

/-- The request object as the model of one request sees it.  Used for requests.py:236-293. -/
def view (w : World) (o : Obj) : Request.Req := ⟨o.shallow, w.environ, w.terminated, w.src, o.stream, o.data⟩

/-- What a call about the body leaves behind: the server's stream is shared, the rest belongs to
the object.  Used for requests.py:236-293. -/
def putBack (w : World) (i : Nat) (o : Obj) (r : Request.Req) : World :=
  { w with src := r.src, reqs := w.reqs.set i { o with stream := r.stream, data := r.cached } }

/-- A call about the body of the `i`-th request object, requests.py:198-206, 236-293. -/
def bodyCall (decode : Bytes → Except PyErr Str) (w : World) (i : Nat) (op : Request.Op) : World :=
  match w.reqs[i]? with
  | none => w
  | some o => putBack w i o (Request.step decode (view w o) op)

/-- `request.get_data(cache, as_text)` of the `i`-th request object, requests.py:273-293. -/
def askData (decode : Bytes → Except PyErr Str) (w : World) (i : Nat) (cache asText : Bool) :
    World × Option (Except PyErr Request.Data) :=
  match w.reqs[i]? with
  | none => (w, none)
  | some o =>
    let r := Request.getData decode (view w o) cache asText
    (putBack w i o r.1, some r.2)

/-- What programs do with one environ: make request objects, read attributes, read the body,
and change or delete a text of the environ.  Models requests.py:149-438. -/
inductive Op where
  | make (populate shallow : Bool)
  | ask (i : Nat) (a : Attr)
  | body (i : Nat) (op : Request.Op)
  | setenv (k v : Str)
  | delenv (k : Str)

/-- Effect of one operation.  Models requests.py:149-438. -/
def step (lib : Lib) (decode : Bytes → Except PyErr Str) (w : World) : Op → World
  | .make p s => make w p s
  | .ask i a => (ask lib w i a).1
  | .body i op => bodyCall decode w i op
  | .setenv k v => { w with environ := Dict.set w.environ k v }
  | .delenv k => { w with environ := Dict.del w.environ k }

/-- A history.  Models requests.py:149-438. -/
def run (lib : Lib) (decode : Bytes → Except PyErr Str) (w : World) (ops : List Op) : World :=
  ops.foldl (step lib decode) w

/-- An environ before any request object was made from it.  Used for requests.py:149-155. -/
def fresh (environ : List (Str × Str)) (terminated : Bool) (src : Src) : World := ⟨environ, terminated, src, [], none⟩

end Verif.Share
