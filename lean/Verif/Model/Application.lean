import Verif.Model.Dispatch
import Verif.Model.RouteBind
import Verif.Model.UrlJoin
import Verif.Model.Redirect
/-!
Model of `/repo/verktyg/application.py` and of the redirects of `/repo/verktyg/utils.py`: from the
environ of a request to what is sent.
-/
namespace Verif.Application
open Verif Verif.Routing Verif.Dispatch Verif.Accept

/-- `redirect(location, code)`, utils.py:185-219; `iri` is `iri_to_uri`. -/
def redirect (web : Response.Cfg) (iri : Str → Except PyErr Str) (location : Str) (code : Int) :
    Except PyErr Response.Resp :=
  match iri location with
  | .error e => .error e
  | .ok uri =>
    match Response.init web [] (some s%"text/html; charset=utf-8") code false (.data (.text (Redirect.page location uri))) with
    | .error e => .error e
    | .ok r =>
      match Redirect.headers web.lower r.headers uri with
      | (_, .error e) => .error e
      | (h, .ok _) => .ok { r with headers := h }

/-- The location of `append_slash_redirect(environ)`, utils.py:231-234. -/
def slashLocation (environ : List (Str × Str)) : Except PyErr Str :=
  match Dict.get environ s%"PATH_INFO" with
  | none => .error .keyError
  | some p =>
    let path := Py.stripP (· = '/') p ++ s%"/"
    match Dict.get environ s%"QUERY_STRING" with
    | none => .ok path
    | some q => .ok (if q = [] then path else path ++ s%"?" ++ q)

/-- `append_slash_redirect(environ, code)`, utils.py:222-235. -/
def appendSlashRedirect (web : Response.Cfg) (iri : Str → Except PyErr Str) (environ : List (Str × Str)) (code : Int) :
    Except PyErr Response.Resp :=
  match slashLocation environ with
  | .error e => .error e
  | .ok l => redirect web iri l code

/-- The adapter of an application, application.py:35-41. -/
def bindRoot (cfg : Config) (lower : Str → Str) (other : Str → Except PyErr Str) (root : Str) : Except PyErr BoundMap :=
  match UrlJoin.urlparse lower root [] with
  | .error e => .error e
  | .ok u => Routing.bind cfg lower other u.netloc (some u.path) none u.scheme none none

/-- The parts of an application, application.py:28-54: the map and how it is bound, the dispatchers,
and the code behind bindings and handlers.  The library functions are those of responses, of
`iri_to_uri` and of the selection of representations.  The handler `redirects` is the one of
`_default_redirect_handler`. -/
structure Parts where
  web : Response.Cfg
  idna : Str → Except PyErr Bytes
  float : Str → Option Flt
  mul : Flt → Flt → Flt
  map : URLMap
  bound : BoundMap
  disp : Disp
  handlers : Handlers
  redirects : Rep
  view : Rep → List (Str × Str) → Values → Except Exc Response.Resp
  handle : Rep → List (Str × Str) → Exc → Except Exc Response.Resp

/-- Routing a request, application.py:58-62. -/
def Parts.route (a : Parts) (environ : List (Str × Str)) : Except Exc (Str × Values) :=
  match ReqUrl.path environ with
  | .error e => .error (.lib e)
  | .ok path =>
    match ReqUrl.queryString environ with
    | .error e => .error (.lib e)
    | .ok query =>
      match a.bound.match_ a.map (some path) (some query) with
      | .error e => .error (.lib e)
      | .ok (.redirect url) => .error (.redirect url)
      | .ok (.found b values) => .ok (b.route.endpoint, values)

/-- `url_for`, application.py:98-105. -/
def Parts.urlFor (a : Parts) (endpoint : Str) (values : Values) : Except PyErr Str :=
  Routing.build a.map a.bound.adapter endpoint values false true

/-- `iri_to_uri`, as called by `redirect`.  Used for utils.py:203-208. -/
def Parts.iri (a : Parts) : Str → Except PyErr Str := Iri.iriToUri a.idna a.web.lower UrlJoin.usesNetloc

/-- Calling a handler: `_default_redirect_handler`, application.py:24-25 (the code of
`RequestRedirect` is 301), or another. -/
def Parts.call (a : Parts) (h : Rep) (environ : List (Str × Str)) (e : Exc) : Except Exc Response.Resp :=
  if h = a.redirects then
    match e with
    | .redirect url =>
      match redirect a.web a.iri url 301 with
      | .error e => .error (.lib e)
      | .ok r => .ok r
    | _ => .error (.lib .attributeError)
  else a.handle h environ e

/-- The application, application.py:28-54. -/
def Parts.app (a : Parts) : App (List (Str × Str)) Values Response.Resp :=
  ⟨a.route, a.disp, a.handlers, a.view, a.call⟩

/-- The method of a request, application.py:66.  Simplification: no method is the empty text. -/
def method (environ : List (Str × Str)) : Str := (Dict.get environ s%"REQUEST_METHOD").getD []

/-- `select_representation` with the headers of a request, application.py:64-70 and 79-84. -/
def Parts.select (a : Parts) (environ : List (Str × Str)) (reps : List Rep) : Except PyErr Rep :=
  Accept.select a.float a.mul reps (Dict.get environ s%"HTTP_ACCEPT") (Dict.get environ s%"HTTP_ACCEPT_LANGUAGE")
    (Dict.get environ s%"HTTP_ACCEPT_CHARSET")

/-- `_get_response`, application.py:56-87. -/
def Parts.response (a : Parts) (mro : Exc → List Nat) (environ : List (Str × Str)) : Except Exc Response.Resp :=
  getResponse a.app mro method a.select environ

/-- What the server gets: status, headers and body. Used for application.py:89-92. -/
structure Sent where
  status : Str
  headers : Headers.HList
  body : Response.AppIter

/-- `get_wsgi_response(environ)`, responses.py:603-619; `label` is the codec for the labels of a
host. -/
def Parts.send (a : Parts) (autocorrect : Bool) (label : Str → Str) (environ : List (Str × Str)) (r : Response.Resp) :
    Except Exc Sent :=
  match UrlJoin.sentHeaders a.web autocorrect a.idna label environ r with
  | .error e => .error (.lib e)
  | .ok h => .ok ⟨r.status, h, Response.appIter (method environ) r⟩

/-- A call of the application without middleware, application.py:89-96.  Simplification: closing
is modelled elsewhere. -/
def Parts.serve (a : Parts) (mro : Exc → List Nat) (autocorrect : Bool) (label : Str → Str)
    (environ : List (Str × Str)) : Except Exc Sent :=
  match a.response mro environ with
  | .error e => .error e
  | .ok r => a.send autocorrect label environ r

end Verif.Application
