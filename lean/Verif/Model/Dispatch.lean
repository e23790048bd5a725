import Verif.Model.Accept
import Verif.Dict
/-!
Model of `/repo/verktyg/dispatch.py`, `/repo/verktyg/exception_dispatch.py` and the request
handling of `/repo/verktyg/application.py`.
-/
namespace Verif.Dispatch
open Verif Verif.Accept

/-! ### Dispatcher -/

/-- `Binding`, dispatch.py:17-51: a representation with a name and a method. -/
structure Binding where
  name : Str
  method : Str
  rep : Rep
deriving DecidableEq

/-- `Dispatcher`, dispatch.py:74-81: `_index` (name, then method) and `_views`. -/
structure Disp where
  index : List (Str × List (Str × List Binding))
  views : List Binding

/-- `Dispatcher()`, dispatch.py:75-77. -/
def Disp.empty : Disp := ⟨[], []⟩

/-- The body of the loop in `add_bindings`, dispatch.py:88-98. -/
def Disp.add (d : Disp) (b : Binding) : Disp :=
  let index := if Dict.has d.index b.name then d.index else Dict.set d.index b.name []
  let withName := (Dict.get index b.name).getD []
  let withName := if Dict.has withName b.method then withName else Dict.set withName b.method []
  let withMethod := (Dict.get withName b.method).getD []
  ⟨Dict.set index b.name (Dict.set withName b.method (withMethod ++ [b])), d.views ++ [b]⟩

/-- `add_bindings(factory)` for a factory yielding `bs`, dispatch.py:82-98. -/
def Disp.addAll (d : Disp) (bs : List Binding) : Disp := bs.foldl Disp.add d

/-- `Dispatcher.lookup`, dispatch.py:103-125; `sel` is `select_representation` with the headers
of the call. -/
def Disp.lookup (sel : List Rep → Except PyErr Rep) (d : Disp) (name method : Str) : Except PyErr Rep :=
  match Dict.get d.index name with
  | none => .error .notImplemented
  | some withName =>
    match Dict.get withName method with
    | some bs => sel (bs.map (·.rep))
    | none =>
      if method = s%"HEAD" then
        match Dict.get withName s%"GET" with
        | some bs => sel (bs.map (·.rep))
        | none => .error .methodNotAllowed
      else .error .methodNotAllowed

/-- A history over any number of dispatchers: adding the bindings of a factory, or another
dispatcher (adding one to itself does not terminate and is left out).
Models dispatch.py:54-125. -/
inductive Op where
  | add (d : Nat) (bs : List Binding)
  | nest (d d' : Nat)

/-- The effect of a call.  A nested dispatcher is a factory yielding its `_views`,
dispatch.py:100-101. -/
def step (w : Nat → Disp) : Op → Nat → Disp
  | .add d bs => fun i => if i = d then (w d).addAll bs else w i
  | .nest d d' => if d = d' then w else fun i => if i = d then (w d).addAll (w d').views else w i

/-- All dispatchers after a history.  Models dispatch.py:54-125. -/
def run (ops : List Op) : Nat → Disp := ops.foldl step fun _ => .empty

/-! ### Views -/

/-- The methods argument of `View`, views.py:34-45. -/
inductive Methods where
  | none
  | one (m : Str)
  | many (ms : List Str)

/-- A list without repetitions.  Used for views.py:40-45. -/
def dedup : List Str → List Str
  | [] => []
  | x :: xs => if x ∈ xs then dedup xs else x :: dedup xs

/-- `View._methods`, views.py:40-45, a set: here without repetitions, in some order. -/
def Methods.set : Methods → List Str
  | .none => [s%"GET"]
  | .one m => [m]
  | .many ms => dedup ms

/-- `View.get_bindings`, views.py:56-62. -/
def viewBindings (name : Str) (ms : Methods) (rep : Rep) : List Binding :=
  ms.set.map fun m => ⟨name, m, rep⟩

/-! ### Exception dispatcher -/

/-- `ExceptionHandler`, exception_dispatch.py:17-37: an exception class and a representation,
whose `id` stands for the action. -/
structure Handler where
  cls : Nat
  rep : Rep
deriving DecidableEq

/-- `ExceptionDispatcher._handlers`, exception_dispatch.py:55-57. -/
abbrev Handlers := List (Nat × List Handler)

/-- The body of `add_exception_handlers` for an `ExceptionHandler`,
exception_dispatch.py:73-77. -/
def addHandler (hs : Handlers) (h : Handler) : Handlers :=
  Dict.set hs h.cls ((Dict.get hs h.cls).getD [] ++ [h])

/-- `add_exception_handlers` with another dispatcher, exception_dispatch.py:73-80: what is
yielded are the keys of its dictionary, exception classes, which have no attribute
`exception_class`. -/
def addNested (hs inner : Handlers) : Except PyErr Handlers :=
  if inner = [] then .ok hs else .error .attributeError

/-- `ExceptionDispatcher.lookup`, exception_dispatch.py:82-123, given the method resolution
order of the class; the result stands for its `action`. -/
def exLookup (sel : List Rep → Except PyErr Rep) (hs : Handlers) : List Nat → Except PyErr (Option Rep)
  | [] => .ok none
  | c :: cs =>
    match Dict.get hs c with
    | none => exLookup sel hs cs
    | some l =>
      match sel (l.map (·.rep)) with
      | .ok h => .ok (some h)
      | .error .notAcceptable => exLookup sel hs cs
      | .error e => .error e

/-! ### Application -/

/-- What can be raised while a request is handled: errors of the library, `RequestRedirect` with
its `new_url` (routing.py:213-223), errors of user code (`exc`: an instance of `Exception`), and
others such as `SystemExit`.  Used for application.py:28-54. -/
inductive Exc where
  | lib (e : PyErr)
  | redirect (url : Str)
  | user (n : Nat)
  | exit (n : Nat)
deriving DecidableEq

/-- Instances of `Exception`.  Used for application.py:56-87. -/
def Exc.isException : Exc → Bool
  | .exit _ => false
  | _ => true

/-- An application, application.py:28-54: its dispatchers, the outcome of routing for a
request, and the code behind bindings and handlers. -/
structure App (Req Args Resp : Type) where
  route : Req → Except Exc (Str × Args)
  disp : Disp
  handlers : Handlers
  view : Rep → Req → Args → Except Exc Resp
  handle : Rep → Req → Exc → Except Exc Resp

/-- `_get_response`, application.py:56-87.  `sel` is `select_representation` with the Accept
headers of the request; `mro` the method resolution order of the class of an exception. -/
def getResponse {Req Args Resp : Type} (app : App Req Args Resp) (mro : Exc → List Nat)
    (method : Req → Str) (sel : Req → List Rep → Except PyErr Rep) (req : Req) : Except Exc Resp :=
  let body : Except Exc Resp :=
    match app.route req with
    | .error e => .error e
    | .ok (endpoint, args) =>
      match app.disp.lookup (sel req) endpoint (method req) with
      | .error e => .error (.lib e)
      | .ok b => app.view b req args
  match body with
  | .ok r => .ok r
  | .error e =>
    if e.isException then
      match exLookup (sel req) app.handlers (mro e) with
      | .error e' => .error (.lib e')
      | .ok none => .error e
      | .ok (some h) => app.handle h req e
    else .error e

/-- The middleware stack, application.py:52-54: each wrapper is applied to what has been built
so far. -/
def stack {A : Type} (inner : A) (middleware : List (A → A)) : A := middleware.foldl (fun app w => w app) inner

end Verif.Dispatch
