import Verif.Model.Abort
import Verif.Model.Application
import Verif.Model.MultiDict
/-!
Model of the exception classes of `/repo/verktyg/exceptions.py` as classes: their resolution order, the attributes
they inherit, the classes made by `wrap`, their names and texts, and the table of reason phrases.
-/
namespace Verif.Errors
open Verif

/-- `HTTP_STATUS_CODES`, exceptions.py:63-118. -/
def statusCodes : List (Int × Str) := [
   (100, s%"Continue"),
   (101, s%"Switching Protocols"),
   (102, s%"Processing"),
   (200, s%"OK"),
   (201, s%"Created"),
   (202, s%"Accepted"),
   (203, s%"Non Authoritative Information"),
   (204, s%"No Content"),
   (205, s%"Reset Content"),
   (206, s%"Partial Content"),
   (207, s%"Multi Status"),
   (226, s%"IM Used"),
   (300, s%"Multiple Choices"),
   (301, s%"Moved Permanently"),
   (302, s%"Found"),
   (303, s%"See Other"),
   (304, s%"Not Modified"),
   (305, s%"Use Proxy"),
   (307, s%"Temporary Redirect"),
   (400, s%"Bad Request"),
   (401, s%"Unauthorized"),
   (402, s%"Payment Required"),
   (403, s%"Forbidden"),
   (404, s%"Not Found"),
   (405, s%"Method Not Allowed"),
   (406, s%"Not Acceptable"),
   (407, s%"Proxy Authentication Required"),
   (408, s%"Request Timeout"),
   (409, s%"Conflict"),
   (410, s%"Gone"),
   (411, s%"Length Required"),
   (412, s%"Precondition Failed"),
   (413, s%"Request Entity Too Large"),
   (414, s%"Request URI Too Long"),
   (415, s%"Unsupported Media Type"),
   (416, s%"Requested Range Not Satisfiable"),
   (417, s%"Expectation Failed"),
   (418, s%"I'm a teapot"),
   (422, s%"Unprocessable Entity"),
   (423, s%"Locked"),
   (424, s%"Failed Dependency"),
   (426, s%"Upgrade Required"),
   (428, s%"Precondition Required"),
   (429, s%"Too Many Requests"),
   (431, s%"Request Header Fields Too Large"),
   (449, s%"Retry With"),
   (500, s%"Internal Server Error"),
   (501, s%"Not Implemented"),
   (502, s%"Bad Gateway"),
   (503, s%"Service Unavailable"),
   (504, s%"Gateway Timeout"),
   (505, s%"HTTP Version Not Supported"),
   (507, s%"Insufficient Storage"),
   (510, s%"Not Extended")]

/-- The reason phrase of a status line, responses.py:286-287; `upper` is `str.upper`. -/
def reason (upper : Str → Str) (n : Int) : Option Str := (Dict.get statusCodes n).map upper

/-- `HTTPException.name`, exceptions.py:147-150, for the attribute `code` of the class. -/
def name (code : Option Int) : Str :=
  match code with
  | none => s%"Unknown Error"
  | some n => (Dict.get statusCodes n).getD s%"Unknown Error"

/-- `HTTPException.__str__`, exceptions.py:152-153: `%d` refuses `None`. -/
def str (code : Option Int) : Except PyErr Str :=
  match code with
  | none => .error .typeError
  | some n => .ok (Py.intStr n ++ s%": " ++ name code)

/-- `HTTPException.__repr__`, exceptions.py:155-156. -/
def repr (cls : Str) (code : Option Int) : Except PyErr Str :=
  match str code with
  | .error e => .error e
  | .ok t => .ok (s%"<" ++ cls ++ s%" '" ++ t ++ s%"'>")

/-! ### Classes -/

/-- The first class that stands in no rest of a list: one choice of Python's linearization of classes.
Used for exceptions.py:138. -/
def candidate (all : List (List Str)) : List (List Str) → Option Str
  | [] => none
  | [] :: rest => candidate all rest
  | (c :: _) :: rest => if all.any (fun l => l.tail.contains c) then candidate all rest else some c

/-- The lists without a class at their heads.  Used for exceptions.py:138. -/
def remove (c : Str) (ls : List (List Str)) : List (List Str) :=
  ls.map fun l => if l.head? = some c then l.tail else l

/-- The merge of Python's linearization of classes (C3), with a bound on its rounds; `none` for the `TypeError`
of bases without an order.  Used for exceptions.py:138. -/
def merge : Nat → List (List Str) → Option (List Str)
  | 0, _ => none
  | n + 1, ls =>
    if ls.all (·.isEmpty) then some []
    else match candidate ls ls with
      | none => none
      | some c => (merge n (remove c ls)).map (c :: ·)

/-- A class statement: the name, the bases, and `code` if the body has it (`none` within for `None`).
Used for exceptions.py:121-537. -/
structure Stmt where
  name : Str
  bases : List Str
  code : Option (Option Int)

/-- A class: its resolution order and its own attribute `code`.  Used for exceptions.py:121-537. -/
structure Cls where
  mro : List Str
  code : Option (Option Int)
deriving DecidableEq

/-- Executing a class statement in a module, exceptions.py:121-537: `none` for an unknown base or bases without an
order. -/
def define (classes : List (Str × Cls)) (s : Stmt) : Option (List (Str × Cls)) :=
  match s.bases.mapM fun b => (Dict.get classes b).map (·.mro) with
  | none => none
  | some ms =>
    let ls := ms ++ [s.bases]
    match merge (ls.flatten.length + 1) ls with
    | none => none
    | some m => some (Dict.set classes s.name ⟨s.name :: m, s.code⟩)

/-- `cls.wrap(exception, name)`, exceptions.py:133-145, and the assignment of the result. -/
def wrap (classes : List (Str × Cls)) (cls exception : Str) (name : Option Str) : Option (List (Str × Cls)) :=
  define classes ⟨(match name with | some n => if n = [] then cls ++ exception else n | none => cls ++ exception),
    [cls, exception], none⟩

/-- The classes of Python that are used.  Used for exceptions.py:121, 594. -/
def builtins : List Stmt := [
   ⟨s%"BaseException", [s%"object"], none⟩,
   ⟨s%"Exception", [s%"BaseException"], none⟩,
   ⟨s%"LookupError", [s%"Exception"], none⟩,
   ⟨s%"KeyError", [s%"LookupError"], none⟩]

/-- The class statements of exceptions.py:121-537. -/
def statements : List Stmt := [
   ⟨s%"HTTPException", [s%"Exception"], (some none)⟩,
   ⟨s%"BadRequest", [s%"HTTPException"], (some (some 400))⟩,
   ⟨s%"ClientDisconnected", [s%"BadRequest"], none⟩,
   ⟨s%"SecurityError", [s%"BadRequest"], none⟩,
   ⟨s%"Unauthorized", [s%"HTTPException"], (some (some 401))⟩,
   ⟨s%"Forbidden", [s%"HTTPException"], (some (some 403))⟩,
   ⟨s%"NotFound", [s%"HTTPException"], (some (some 404))⟩,
   ⟨s%"MethodNotAllowed", [s%"HTTPException"], (some (some 405))⟩,
   ⟨s%"NotAcceptable", [s%"HTTPException"], (some (some 406))⟩,
   ⟨s%"RequestTimeout", [s%"HTTPException"], (some (some 408))⟩,
   ⟨s%"Conflict", [s%"HTTPException"], (some (some 409))⟩,
   ⟨s%"Gone", [s%"HTTPException"], (some (some 410))⟩,
   ⟨s%"LengthRequired", [s%"HTTPException"], (some (some 411))⟩,
   ⟨s%"PreconditionFailed", [s%"HTTPException"], (some (some 412))⟩,
   ⟨s%"RequestEntityTooLarge", [s%"HTTPException"], (some (some 413))⟩,
   ⟨s%"RequestURITooLarge", [s%"HTTPException"], (some (some 414))⟩,
   ⟨s%"UnsupportedMediaType", [s%"HTTPException"], (some (some 415))⟩,
   ⟨s%"RequestedRangeNotSatisfiable", [s%"HTTPException"], (some (some 416))⟩,
   ⟨s%"ExpectationFailed", [s%"HTTPException"], (some (some 417))⟩,
   ⟨s%"ImATeapot", [s%"HTTPException"], (some (some 418))⟩,
   ⟨s%"UnprocessableEntity", [s%"HTTPException"], (some (some 422))⟩,
   ⟨s%"PreconditionRequired", [s%"HTTPException"], (some (some 428))⟩,
   ⟨s%"TooManyRequests", [s%"HTTPException"], (some (some 429))⟩,
   ⟨s%"RequestHeaderFieldsTooLarge", [s%"HTTPException"], (some (some 431))⟩,
   ⟨s%"InternalServerError", [s%"HTTPException"], (some (some 500))⟩,
   ⟨s%"NotImplemented", [s%"HTTPException"], (some (some 501))⟩,
   ⟨s%"BadGateway", [s%"HTTPException"], (some (some 502))⟩,
   ⟨s%"ServiceUnavailable", [s%"HTTPException"], (some (some 503))⟩,
   ⟨s%"GatewayTimeout", [s%"HTTPException"], (some (some 504))⟩,
   ⟨s%"HTTPVersionNotSupported", [s%"HTTPException"], (some (some 505))⟩]

/-- The classes after the module has been loaded, exceptions.py:121-594. -/
def loaded : Option (List (Str × Cls)) :=
  match (builtins ++ statements).foldlM define [(s%"object", ⟨[s%"object"], none⟩)] with
  | none => none
  | some classes => wrap classes s%"BadRequest" s%"KeyError" none

/-- The resolution order of a class of the module.  Used for exception_dispatch.py:105. -/
def mro (cls : Str) : List Str :=
  match loaded with
  | none => []
  | some classes => match Dict.get classes cls with
    | none => []
    | some c => c.mro

/-- The first class of a resolution order with its own attribute `code`.  Used for exceptions.py:150. -/
def codeIn (classes : List (Str × Cls)) : List Str → Option Int
  | [] => none
  | c :: cs =>
    match (Dict.get classes c).bind (·.code) with
    | some v => v
    | none => codeIn classes cs

/-- `e.code` for an instance of a class of the module.  Used for exceptions.py:150, 153. -/
def code (cls : Str) : Option Int :=
  match loaded with
  | none => none
  | some classes => codeIn classes (mro cls)

/-- `Response(body, status=e.code)`, the answer a handler gives to an exception as in the documentation:
responses.py:161-197 with application.py:79-87. -/
def errorPage (web : Response.Cfg) (cls : Str) (contentType : Option Str) (body : Response.Init) : Except PyErr Response.Resp :=
  match code cls with
  | none => Response.init web [] contentType 200 false body
  | some n => Response.init web [] contentType n false body

/-- A view that begins with `value = request.args[parameter]`: datastructures.py:349-360 with application.py:74;
`pairs` are the parameters of the request and `rest` the rest of the view. -/
def reading {A : Type} (pairs : Except PyErr (List (Str × Str))) (parameter : Str)
    (rest : Str → Except Dispatch.Exc A) : Except Dispatch.Exc A :=
  match pairs with
  | .error e => .error (.lib e)
  | .ok ps =>
    match MD.getitem (MD.ofPairs ps) parameter with
    | .error e => .error (.lib e)
    | .ok v => rest v

end Verif.Errors
