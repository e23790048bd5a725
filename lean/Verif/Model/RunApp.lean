import Verif.Py
/-!
Model of `run_wsgi_app`, /repo/verktyg/test.py:889-948.  An application is what it does: the
acts of the call, then for each `next` of its iterable the acts and the bytes yielded, then the
acts of the `next` that ends it.
-/
namespace Verif.RunApp
open Verif

/-- What an application does with `start_response`: call it, call it with `exc_info`, or call the
`write` it returned, test.py:914-921. -/
inductive Act where
  | start (status : Str) (headers : List (Str × Str))
  | startExc
  | write (b : Bytes)
deriving DecidableEq

/-- An application.  `hasClose` tells whether the iterable has a `close`, `ownIter` whether it is
its own iterator, test.py:923-925. -/
structure App where
  call : List Act
  steps : List (List Act × Bytes)
  final : List Act
  hasClose : Bool
  ownIter : Bool
deriving DecidableEq

/-- The closure of `start_response`, and how often `close` was called.  Used for test.py:911-921. -/
structure World where
  response : Option (Str × List (Str × Str))
  buffer : List Bytes
  closes : Nat
deriving DecidableEq

/-- One act, test.py:914-921; with `exc_info` the exception is raised again, here as
`RuntimeError` whatever it was. -/
def act (w : World) : Act → World × Option PyErr
  | .start s h => ({ w with response := some (s, h) }, none)
  | .startExc => (w, some .runtimeError)
  | .write b => ({ w with buffer := w.buffer ++ [b] }, none)

/-- Acts in order, up to one that raises.  Used for test.py:923-942. -/
def acts (w : World) : List Act → World × Option PyErr
  | [] => (w, none)
  | a :: rest => match act w a with
    | (w, some e) => (w, some e)
    | (w, none) => acts w rest

/-- All that is left of the iterable: the bytes it yields, and the exception that ended it.
Used for test.py:931, and for whoever iterates over the result. -/
def drain (w : World) (final : List Act) : List (List Act × Bytes) → World × List Bytes × Option PyErr
  | [] => match acts w final with
    | (w, e) => (w, [], e)
  | (as, b) :: rest => match acts w as with
    | (w, some e) => (w, [], some e)
    | (w, none) => match drain w final rest with
      | (w, bs, e) => (w, b :: bs, e)

/-- The loop that waits for the response, test.py:941-942: what is left of the iterable. -/
def await (w : World) (final : List Act) : List (List Act × Bytes) → World × Except PyErr (List (List Act × Bytes))
  | [] => match w.response with
    | some _ => (w, .ok [])
    | none => match acts w final with
      | (w, some e) => (w, .error e)
      | (w, none) => (w, .error .stopIteration)
  | (as, b) :: rest => match w.response with
    | some _ => (w, .ok ((as, b) :: rest))
    | none => match acts w as with
      | (w, some e) => (w, .error e)
      | (w, none) => await { w with buffer := w.buffer ++ [b] } final rest

/-- The iterable that is returned, test.py:943-948: bytes already there, then what is left of the
application; whether it is wrapped in a `ClosingIterator`, and whether it is the object the
application returned. -/
structure Result where
  pre : List Bytes
  steps : List (List Act × Bytes)
  final : List Act
  wrapped : Bool
  own : Bool
  status : Str
  headers : List (Str × Str)
deriving DecidableEq

/-- Closing, if there is a `close`.  Used for test.py:932-934. -/
def close (a : App) (w : World) : World := if a.hasClose then { w with closes := w.closes + 1 } else w

/-- `run_wsgi_app(app, environ, buffered)`, test.py:911-948. -/
def run (a : App) (buffered : Bool) : World × Except PyErr Result :=
  match acts ⟨none, [], 0⟩ a.call with
  | (w, some e) => (w, .error e)
  | (w, none) =>
    if buffered then
      match drain w a.final a.steps with
      | (w, _, some e) => (close a w, .error e)
      | (w, bs, none) =>
        let w := close a w
        match w.response with
        | none => (w, .error .indexError)
        | some (s, h) => (w, .ok ⟨bs, [], [], false, false, s, h⟩)
    else
      match await w a.final a.steps with
      | (w, .error e) => (w, .error e)
      | (w, .ok rest) =>
        match w.response with
        | none => (w, .error .indexError)
        | some (s, h) =>
          -- `app_iter is app_rv`: it was neither chained nor another object from the start
          let own := decide (w.buffer = []) && a.ownIter
          (w, .ok ⟨w.buffer, rest, a.final, a.hasClose && !own, own, s, h⟩)

/-- Iterating over the result to the end, and closing it: a `ClosingIterator` calls the `close` of
the application, and the object of the application has it itself.  Used for test.py:943-946. -/
def consume (a : App) (r : Result) (w : World) : World × List Bytes × Option PyErr :=
  match drain w r.final r.steps with
  | (w, bs, e) => (if r.wrapped then { w with closes := w.closes + 1 } else if r.own then close a w else w, r.pre ++ bs, e)

end Verif.RunApp
