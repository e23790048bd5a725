import Verif.Py
import Verif.Dict
/-!
Model of the exception table and of `abort`: `/repo/verktyg/exceptions.py:121-589`.
-/
namespace Verif.Abort
open Verif

/-- An exception class: its name, its `code`, and the HTTP exception classes it derives from,
itself included.  Used for exceptions.py:545-556. -/
structure Cls where
  name : Str
  code : Option Int
  bases : List Str
deriving DecidableEq

/-- `issubclass(a, b)`.  Used for exceptions.py:545-556. -/
def Cls.sub (a b : Cls) : Bool := a.bases.contains b.name

/-- One round of the loop of `_find_exceptions`, exceptions.py:545-556. -/
def findStep (d : List (Int × Cls)) (c : Cls) : List (Int × Cls) :=
  match c.code with
  | none => d
  | some n =>
    match Dict.get d n with
    | some old => if c.sub old then d else Dict.set d n c
    | none => Dict.set d n c

/-- `default_exceptions` after `_find_exceptions`, exceptions.py:540-559, for the classes of the
module in the order of its globals. -/
def find (classes : List Cls) : List (Int × Cls) := classes.foldl findStep []

/-- The exception classes of exceptions.py:121-537 in order of definition; a class without its
own `code` inherits it. -/
def repoClasses : List Cls := [
   ⟨s%"HTTPException", none, [s%"HTTPException"]⟩,
   ⟨s%"BadRequest", some 400, [s%"BadRequest", s%"HTTPException"]⟩,
   ⟨s%"ClientDisconnected", some 400, [s%"ClientDisconnected", s%"BadRequest", s%"HTTPException"]⟩,
   ⟨s%"SecurityError", some 400, [s%"SecurityError", s%"BadRequest", s%"HTTPException"]⟩,
   ⟨s%"Unauthorized", some 401, [s%"Unauthorized", s%"HTTPException"]⟩,
   ⟨s%"Forbidden", some 403, [s%"Forbidden", s%"HTTPException"]⟩,
   ⟨s%"NotFound", some 404, [s%"NotFound", s%"HTTPException"]⟩,
   ⟨s%"MethodNotAllowed", some 405, [s%"MethodNotAllowed", s%"HTTPException"]⟩,
   ⟨s%"NotAcceptable", some 406, [s%"NotAcceptable", s%"HTTPException"]⟩,
   ⟨s%"RequestTimeout", some 408, [s%"RequestTimeout", s%"HTTPException"]⟩,
   ⟨s%"Conflict", some 409, [s%"Conflict", s%"HTTPException"]⟩,
   ⟨s%"Gone", some 410, [s%"Gone", s%"HTTPException"]⟩,
   ⟨s%"LengthRequired", some 411, [s%"LengthRequired", s%"HTTPException"]⟩,
   ⟨s%"PreconditionFailed", some 412, [s%"PreconditionFailed", s%"HTTPException"]⟩,
   ⟨s%"RequestEntityTooLarge", some 413, [s%"RequestEntityTooLarge", s%"HTTPException"]⟩,
   ⟨s%"RequestURITooLarge", some 414, [s%"RequestURITooLarge", s%"HTTPException"]⟩,
   ⟨s%"UnsupportedMediaType", some 415, [s%"UnsupportedMediaType", s%"HTTPException"]⟩,
   ⟨s%"RequestedRangeNotSatisfiable", some 416, [s%"RequestedRangeNotSatisfiable", s%"HTTPException"]⟩,
   ⟨s%"ExpectationFailed", some 417, [s%"ExpectationFailed", s%"HTTPException"]⟩,
   ⟨s%"ImATeapot", some 418, [s%"ImATeapot", s%"HTTPException"]⟩,
   ⟨s%"UnprocessableEntity", some 422, [s%"UnprocessableEntity", s%"HTTPException"]⟩,
   ⟨s%"PreconditionRequired", some 428, [s%"PreconditionRequired", s%"HTTPException"]⟩,
   ⟨s%"TooManyRequests", some 429, [s%"TooManyRequests", s%"HTTPException"]⟩,
   ⟨s%"RequestHeaderFieldsTooLarge", some 431, [s%"RequestHeaderFieldsTooLarge", s%"HTTPException"]⟩,
   ⟨s%"InternalServerError", some 500, [s%"InternalServerError", s%"HTTPException"]⟩,
   ⟨s%"NotImplemented", some 501, [s%"NotImplemented", s%"HTTPException"]⟩,
   ⟨s%"BadGateway", some 502, [s%"BadGateway", s%"HTTPException"]⟩,
   ⟨s%"ServiceUnavailable", some 503, [s%"ServiceUnavailable", s%"HTTPException"]⟩,
   ⟨s%"GatewayTimeout", some 504, [s%"GatewayTimeout", s%"HTTPException"]⟩,
   ⟨s%"HTTPVersionNotSupported", some 505, [s%"HTTPVersionNotSupported", s%"HTTPException"]⟩]

/-- What a call of `abort` raises.  Used for exceptions.py:581-586. -/
inductive Raised where
  | cls (c : Cls)
  | lookup
  | response
deriving DecidableEq

/-- `Aborter.__init__`, exceptions.py:574-579. -/
def aborter (mapping : Option (List (Int × Cls))) (extra : List (Int × Cls)) : List (Int × Cls) :=
  extra.foldl (fun d p => Dict.set d p.1 p.2) (mapping.getD (find repoClasses))

/-- The first argument of `abort`: a code, or a WSGI application.
Used for exceptions.py:581-586. -/
inductive Arg where
  | code (n : Int)
  | app

/-- `Aborter.__call__`, exceptions.py:581-586; `more` says whether further arguments are given.
An application given with further arguments is looked up like a code and not found. -/
def call (m : List (Int × Cls)) (a : Arg) (more : Bool) : Raised :=
  match a with
  | .app => if more then .lookup else .response
  | .code n => match Dict.get m n with
    | none => .lookup
    | some c => .cls c

end Verif.Abort
