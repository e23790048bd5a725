import Verif.Model.Response
import Verif.Model.RunApp
/-!
Model of `BaseResponse.from_app` and `force_type` (`/repo/verktyg/responses.py:219-279`): WSGI applications
turned into response objects; and of a response called as an application (`responses.py:603-632`).
-/
namespace Verif.FromApp
open Verif Verif.Response

/-- `cls(app_iter, status, headers)` for what `run_wsgi_app` returns, responses.py:279 with 161-197.  `default` is
the content type made of `default_mimetype`.  A buffered result is a list.  Simplification: the application
raises nothing while it is iterated over, and what it writes then is left out. -/
def ofResult (cfg : Cfg) (default : Str) (a : RunApp.App) (buffered : Bool) (res : RunApp.Result) : Except PyErr Resp :=
  let h := if Headers.contains cfg.lower res.headers s%"content-type" then res.headers
    else (Headers.set cfg.lower res.headers s%"Content-Type" default []).1
  match setStatus ⟨h, [], 0, .list [], [], false⟩ res.status with
  | (_, .error e) => .error e
  | (r, .ok _) =>
    .ok { r with body :=
      if buffered then .list (res.pre.map .bytes)
      else .stream ((res.pre ++ res.steps.map Prod.snd).map .bytes) (res.wrapped || (res.own && a.hasClose)) }

/-- `from_app(app, environ, buffered)`, responses.py:261-279.  The environment is in the application. -/
def fromApp (cfg : Cfg) (default : Str) (a : RunApp.App) (buffered : Bool) : Except PyErr Resp :=
  match RunApp.run a buffered with
  | (_, .error e) => .error e
  | (_, .ok res) => ofResult cfg default a buffered res

/-- What is given to `force_type`: a response or an application.  Used for responses.py:250-259. -/
inductive Forced where
  | response (r : Resp)
  | app (a : RunApp.App)

/-- `force_type(response, environ)`, responses.py:219-259.  The class of the result is left out. -/
def forceType (cfg : Cfg) (default : Str) (hasEnviron : Bool) : Forced → Except PyErr Resp
  | .response r => .ok r
  | .app a => if hasEnviron then fromApp cfg default a false else .error .typeError

/-- What a response sends: the status line, the headers and the elements of the body, responses.py:603-632.
`method` is the method of the request. -/
def sent (cfg : Cfg) (iri absolute : Str → Except PyErr Str) (method : Str) (r : Resp) :
    Except PyErr (Str × Headers.HList × List Item) :=
  match wsgiHeaders cfg iri absolute r with
  | .error e => .error e
  | .ok h => match (appIter method r).yields cfg with
    | .error e => .error e
    | .ok ys => .ok (r.status, h, ys)

/-- A response as an application, `__call__`, responses.py:620-632: it starts with its status and headers, and yields
its bytes.  A `ClosingIterator` (wsgi.py:591-599) is its own iterator and has `close`; the iterable of a response
in passthrough mode is what it is. -/
def asApp (status : Str) (h : Headers.HList) (body : List Bytes) (hasClose ownIter : Bool) : RunApp.App :=
  ⟨[.start status h], body.map fun b => ([], b), [], hasClose, ownIter⟩

end Verif.FromApp
