import Verif.Model.Headers
import Verif.Dict
/-!
Model of `BaseResponse` (`/repo/verktyg/responses.py:70-632`), of `ResponseStream` (776-814), of
`ClosingIterator` (`/repo/verktyg/wsgi.py:555-599`) and of the generator around them in
`/repo/verktyg/application.py:89-92`.

Simplifications: an iterable that is neither a list nor a tuple is a one-shot iterator, with or
without a `close` method; `self.response` is never a plain string (the constructor converts
strings with `set_data`); subclasses do not override methods.
-/
namespace Verif.Response
open Verif Verif.Headers

/-- An element of the response iterable: text or bytes.  Used for responses.py:62-67. -/
inductive Item where
  | text (s : Str)
  | bytes (b : Bytes)
deriving DecidableEq

/-- `len(x)` of an element: characters or bytes.  Used for responses.py:341-347. -/
def Item.len : Item → Nat
  | .text s => s.length
  | .bytes b => b.length

/-- `self.response`.  Used for responses.py:463-469. -/
inductive Body where
  | list (xs : List Item)
  | tuple (xs : List Item)
  | stream (xs : List Item) (hasClose : Bool)
deriving DecidableEq

/-- The elements that iterating the body gives.  Used for responses.py:372-386. -/
def Body.items : Body → List Item
  | .list xs => xs
  | .tuple xs => xs
  | .stream xs _ => xs

/-- `is_sequence`, responses.py:463-469. -/
def Body.isSequence : Body → Bool
  | .stream _ _ => false
  | _ => true

/-- `hasattr(self.response, 'close')`.  Used for responses.py:372-386. -/
def Body.hasClose : Body → Bool
  | .stream _ c => c
  | _ => false

/-- Functions registered for closing: those of the user, and the `close` method of the wrapped
iterable (make_sequence, responses.py:380-386). -/
inductive Cb where
  | user (n : Nat)
  | body
deriving DecidableEq

/-- A response object.  Models responses.py:70-632. -/
structure Resp where
  headers : HList
  status : Str
  code : Int
  body : Body
  onClose : List Cb
  direct : Bool
deriving DecidableEq

/-- Class attributes and library functions used by a response: `str.lower`, `str.encode` with the
charset, the upper-cased reason phrases of `HTTP_STATUS_CODES`,
`automatically_set_content_length` and `implicit_sequence_conversion` (responses.py:141-159). -/
structure Cfg where
  lower : Str → Str
  encode : Str → Except PyErr Bytes
  reason : Int → Option Str
  autoLength : Bool
  implicitSeq : Bool

variable (cfg : Cfg)

/-! ### Status -/

/-- `_set_status_code`, responses.py:284-289. -/
def setStatusCode (r : Resp) (code : Int) : Resp :=
  { r with
    code := code
    status := match cfg.reason code with
      | some t => Py.intStr code ++ s%" " ++ t
      | none => Py.intStr code ++ s%" UNKNOWN" }

/-- `s.split(None, 1)[0]`: the first word, `none` for the `IndexError` of blank text.
Used for responses.py:299-305. -/
def firstWord (s : Str) : Option Str :=
  match Py.lstrip s with
  | [] => none
  | c :: cs => some ((c :: cs).takeWhile (fun x => !Py.isSpace x))

/-- `_set_status`, responses.py:299-305.  The attribute is assigned before it is parsed. -/
def setStatus (r : Resp) (value : Str) : Resp × Except PyErr Unit :=
  match firstWord value with
  | none => ({ r with status := value }, .error .indexError)
  | some w =>
    match Py.intOf w with
    | .ok n => ({ r with status := value, code := n }, .ok ())
    | .error _ => ({ r with status := s%"0 " ++ value, code := 0 }, .ok ())

/-! ### Body -/

/-- `_iter_encoded` for one element, responses.py:62-67. -/
def encodeItem : Item → Except PyErr Bytes
  | .text s => cfg.encode s
  | .bytes b => .ok b

/-- `list(self.iter_encoded())`.  Used for responses.py:372-386. -/
def encodeAll : List Item → Except PyErr (List Bytes)
  | [] => .ok []
  | x :: xs =>
    match encodeItem cfg x with
    | .error e => .error e
    | .ok b =>
      match encodeAll xs with
      | .error e => .error e
      | .ok bs => .ok (b :: bs)

/-- `headers['Content-Length'] = str(n)`.  Used for responses.py:326-339. -/
def setLength (h : HList) (n : Nat) : HList := (Headers.set cfg.lower h s%"Content-Length" (Py.natStr n) []).1

/-- `set_data(value)`, responses.py:326-339. -/
def setData (r : Resp) (value : Item) : Resp × Except PyErr Unit :=
  match encodeItem cfg value with
  | .error e => (r, .error e)
  | .ok b =>
    ({ r with
        body := .list [.bytes b]
        headers := if cfg.autoLength then setLength cfg r.headers b.length else r.headers }, .ok ())

/-- `make_sequence`, responses.py:372-386.  Simplification: when encoding fails the elements
already taken from the iterator are put back. -/
def makeSequence (r : Resp) : Resp × Except PyErr Unit :=
  if r.body.isSequence then (r, .ok ())
  else
    match encodeAll cfg r.body.items with
    | .error e => (r, .error e)
    | .ok bs =>
      ({ r with
          body := .list (bs.map .bytes)
          onClose := if r.body.hasClose then r.onClose ++ [.body] else r.onClose }, .ok ())

/-- `_ensure_sequence(mutable)`, responses.py:349-370. -/
def ensureSequence (r : Resp) (mutable : Bool) : Resp × Except PyErr Unit :=
  if r.body.isSequence then
    (if mutable then { r with body := .list r.body.items } else r, .ok ())
  else if r.direct then (r, .error .runtimeError)
  else if !cfg.implicitSeq then (r, .error .runtimeError)
  else makeSequence cfg r

/-- `get_data()`, responses.py:309-324. -/
def getData (r : Resp) : Resp × Except PyErr Bytes :=
  match ensureSequence cfg r false with
  | (r', .error e) => (r', .error e)
  | (r', .ok _) =>
    match encodeAll cfg r'.body.items with
    | .error e => (r', .error e)
    | .ok bs => (r', .ok bs.flatten)

/-- `calculate_content_length()`, responses.py:341-347. -/
def calcLength (r : Resp) : Resp × Except PyErr (Option Nat) :=
  match ensureSequence cfg r false with
  | (r', .error .runtimeError) => (r', .ok none)
  | (r', .error e) => (r', .error e)
  | (r', .ok _) => (r', .ok (some (r'.body.items.map Item.len).sum))

/-- `freeze()`, responses.py:486-494. -/
def freeze (r : Resp) : Resp × Except PyErr Unit :=
  match encodeAll cfg r.body.items with
  | .error e => (r, .error e)
  | .ok bs =>
    ({ r with
        body := .list (bs.map .bytes)
        headers := setLength cfg r.headers (bs.map List.length).sum }, .ok ())

/-- `stream.write(value)` on an open stream, responses.py:789-794. -/
def write (r : Resp) (value : Item) : Resp × Except PyErr Unit :=
  match ensureSequence cfg r true with
  | (r', .error e) => (r', .error e)
  | (r', .ok _) =>
    ({ r' with
        body := .list (r'.body.items ++ [value])
        headers := Headers.delKey cfg.lower r'.headers s%"Content-Length" }, .ok ())

/-- `call_on_close(func)`, responses.py:199-206. -/
def callOnClose (r : Resp) (n : Nat) : Resp := { r with onClose := r.onClose ++ [.user n] }

/-! ### Emission -/

/-- The loop of `get_wsgi_headers` looking for one name, responses.py:520-528: the last one. -/
def lastValue (name : Str) (h : HList) : Option Str :=
  h.foldl (fun acc p => if cfg.lower p.1 = name then some p.2 else acc) none

/-- The treatment of `Location`, responses.py:530-544.  `iri` is `iri_to_uri`; `absolute` stands
for joining with the URL of the application root (the identity when
`autocorrect_location_header` is off).  Both may raise. -/
def fixLocation (iri absolute : Str → Except PyErr Str) (location : Option Str) (h : HList) :
    Except PyErr HList :=
  match location with
  | none => .ok h
  | some old =>
    match iri old with
    | .error e => .error e
    | .ok l =>
      match absolute l with
      | .error e => .error e
      | .ok l =>
        if l = old then .ok h
        else match Headers.set cfg.lower h s%"Location" l [] with
          | (_, .error e) => .error e
          | (h', .ok _) => .ok h'

/-- The treatment of `Content-Location`, responses.py:546-551. -/
def fixContentLocation (iri : Str → Except PyErr Str) (cl : Option Str) (h : HList) :
    Except PyErr HList :=
  match cl with
  | none => .ok h
  | some v =>
    match iri v with
    | .error e => .error e
    | .ok v => match Headers.set cfg.lower h s%"Content-Location" v [] with
      | (_, .error e) => .error e
      | (h', .ok _) => .ok h'

/-- `headers[:] = [...]` in `remove_entity_headers`, with the validation of
`Headers.__setitem__`.  Used for responses.py:553-571. -/
def dropEntity (h : HList) : Except PyErr HList :=
  match Headers.setSlice h 0 h.length
      (Headers.removeEntityHeaders cfg.lower h [s%"expires", s%"content-location"]) with
  | (_, .error e) => .error e
  | (h', .ok _) => .ok h'

/-- `100 <= status < 200`.  Used for responses.py:553-571. -/
def informational (code : Int) : Bool := decide (100 ≤ code ∧ code < 200)

/-- The last part of `get_wsgi_headers`, responses.py:553-571. -/
def fixLength (r : Resp) (contentLength : Option Str) (h : HList) : Except PyErr HList :=
  if informational r.code || r.code == 204 then
    .ok (Headers.set cfg.lower h s%"Content-Length" s%"0" []).1
  else if r.code == 304 then dropEntity cfg h
  else if cfg.autoLength && r.body.isSequence && contentLength.isNone then
    .ok (setLength cfg h (r.body.items.map Item.len).sum)
  else .ok h

/-- `get_wsgi_headers(environ)`, responses.py:496-573. -/
def wsgiHeaders (iri absolute : Str → Except PyErr Str) (r : Resp) : Except PyErr HList :=
  match fixLocation cfg iri absolute (lastValue cfg s%"location" r.headers) r.headers with
  | .error e => .error e
  | .ok h =>
    match fixContentLocation cfg iri (lastValue cfg s%"content-location" r.headers) h with
    | .error e => .error e
    | .ok h => fixLength cfg r (lastValue cfg s%"content-length" r.headers) h

/-- What `get_app_iter` returns: a `ClosingIterator` over elements to be encoded, whose `close`
is that of the response, or the bare iterable.  Used for responses.py:575-601. -/
inductive AppIter where
  | closing (items : List Item)
  | raw (body : Body)
deriving DecidableEq

/-- The elements that iterating gives, before encoding.  Used for responses.py:372-386. -/
def AppIter.items : AppIter → List Item
  | .closing xs => xs
  | .raw b => b.items

/-- `get_app_iter(environ)`, responses.py:575-601. -/
def appIter (method : Str) (r : Resp) : AppIter :=
  if method == s%"HEAD" || informational r.code || r.code == 204 || r.code == 304 then .closing []
  else if r.direct then .raw r.body
  else .closing r.body.items

/-- What the server receives from each `next` until the iterable ends or raises; in direct
passthrough mode text is passed on as it is.  Used for responses.py:575-601. -/
def AppIter.yields : AppIter → Except PyErr (List Item)
  | .closing xs => match encodeAll cfg xs with
    | .error e => .error e
    | .ok bs => .ok (bs.map .bytes)
  | .raw b => .ok b.items

/-! ### Closing -/

/-- Calling functions one after the other until one raises: those called, and whether one
raised.  Used for responses.py:471-478. -/
def callAll (raises : Cb → Bool) : List Cb → List Cb × Bool
  | [] => ([], false)
  | c :: cs => if raises c then ([c], true) else (c :: (callAll raises cs).1, (callAll raises cs).2)

/-- `BaseResponse.close()`, responses.py:471-478: the functions called. -/
def close (raises : Cb → Bool) (r : Resp) : List Cb × Bool :=
  callAll raises ((if r.body.hasClose then [.body] else []) ++ r.onClose)

/-- `close` of the iterable given to the server, wsgi.py:597-599; closing the encoding generator
has no effect of its own.  A list or tuple has no `close`. -/
def AppIter.close (raises : Cb → Bool) (r : Resp) : AppIter → List Cb × Bool
  | .closing _ => Response.close raises r
  | .raw b => callAll raises (if b.hasClose then [.body] else [])

/-- The states of the generator `_wsgi_inner`, application.py:89-92: not started, suspended in
`yield from`, finished. -/
inductive Gen where
  | fresh
  | suspended (it : AppIter) (rest : List Item)
  | done
deriving DecidableEq

/-- Leaving the `with` block of the response: `__exit__` calls `close`.  The request's `close`
is not modelled.  Used for application.py:89-92. -/
def exitWith (raises : Cb → Bool) (r : Resp) : List Cb := (Response.close raises r).1

/-- `next` on a suspended generator: the next element, or the end of the inner iterable and the
exit from the `with` block.  An element that cannot be encoded leaves the block too.
Used for application.py:89-92. -/
def resume (raises : Cb → Bool) (r : Resp) (it : AppIter) : List Item → Gen × List Cb
  | [] => (.done, exitWith raises r)
  | x :: rest =>
    match it, encodeItem cfg x with
    | .closing _, .error _ => (.done, exitWith raises r)
    | _, _ => (.suspended it rest, [])

/-- `next` on the generator.  `method` is the request method; the view and `start_response`
succeed.  Used for application.py:89-92. -/
def Gen.next (raises : Cb → Bool) (method : Str) (r : Resp) : Gen → Gen × List Cb
  | .fresh => resume cfg raises r (appIter method r) (appIter method r).items
  | .suspended it rest => resume cfg raises r it rest
  | .done => (.done, [])

/-- `close` on the generator: `GeneratorExit` is raised at `yield from`, which first calls
`close` of the inner iterable (PEP 380), and then leaves the `with` block.
Used for application.py:89-92. -/
def Gen.close (raises : Cb → Bool) (r : Resp) : Gen → Gen × List Cb
  | .fresh => (.done, [])
  | .suspended it _ => (.done, (it.close raises r).1 ++ exitWith raises r)
  | .done => (.done, [])

/-- A server that asks `n` times for the next element and then closes the generator: the
functions called, in order.  Used for application.py:89-92. -/
def Gen.serve (raises : Cb → Bool) (method : Str) (r : Resp) : Nat → Gen → List Cb
  | 0, g => (g.close raises r).2
  | n + 1, g => (g.next cfg raises method r).2 ++ Gen.serve raises method r n (g.next cfg raises method r).1

/-! ### Histories -/

/-- Calls on a response object.  Models responses.py:70-632. -/
inductive Op where
  | setData (v : Item)
  | getData
  | calcLength
  | makeSequence
  | freeze
  | write (v : Item)
  | callOnClose (n : Nat)
  | setStatus (s : Str)
  | setStatusCode (n : Int)
  | header (op : Headers.Op)

/-- Effect of one call.  Models responses.py:70-632. -/
def step (r : Resp) : Op → Resp
  | .setData v => (setData cfg r v).1
  | .getData => (getData cfg r).1
  | .calcLength => (calcLength cfg r).1
  | .makeSequence => (makeSequence cfg r).1
  | .freeze => (freeze cfg r).1
  | .write v => (write cfg r v).1
  | .callOnClose n => callOnClose r n
  | .setStatus s => (setStatus r s).1
  | .setStatusCode n => setStatusCode cfg r n
  | .header op => { r with headers := Headers.step cfg.lower r.headers op }

/-- A history of calls.  Models responses.py:70-632. -/
def run (r : Resp) (ops : List Op) : Resp := ops.foldl (step cfg) r

/-- The body argument of the constructor.  Used for responses.py:161-197. -/
inductive Init where
  | none
  | data (v : Item)
  | body (b : Body)

/-- `BaseResponse.__init__`, responses.py:161-197: headers as given, the content type (already
computed, `none` when the headers carry one), the status code, the body.  Simplification: the
status is given as an integer; the error of an unacceptable content type is not raised. -/
def init (headers : HList) (contentType : Option Str) (code : Int) (direct : Bool) (b : Init) :
    Except PyErr Resp :=
  let h := match contentType with
    | some t => (Headers.set cfg.lower headers s%"Content-Type" t []).1
    | none => headers
  let r := setStatusCode cfg ⟨h, [], 0, .list [], [], direct⟩ code
  match b with
  | .none => .ok r
  | .body b => .ok { r with body := b }
  | .data v =>
    match setData cfg r v with
    | (r', .ok _) => .ok r'
    | (_, .error e) => .error e

end Verif.Response
