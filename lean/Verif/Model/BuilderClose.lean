import Verif.Model.MultiDict
/-!
Model of how an `EnvironBuilder` closes the files it was given, /repo/verktyg/test.py:359-383,
451-478, 531-554, 867-886.  A file is a number; what it contains is in `EnvironBuilder.lean`.
-/
namespace Verif.BuilderFiles
open Verif

/-- The attributes that `close` looks at, test.py:317-357: `held` is `_files`, `stream` tells
whether there is an input stream, `done` has the files whose `close` was called, in order. -/
structure Held where
  held : Option (MD.MDict Str Nat)
  stream : Bool
  closed : Bool
  done : List Nat
deriving DecidableEq

/-- The loop of `close`, test.py:547-552, over the generator `MultiDict.values`
(datastructures.py:501-504): exceptions of the files are dropped, that of an empty list is not. -/
def closeEach : MD.MDict Str Nat → List Nat → List Nat × Except PyErr Unit
  | [], done => (done, .ok ())
  | (_, []) :: _, done => (done, .error .indexError)
  | (_, h :: _) :: d, done => closeEach d (done ++ [h])

/-- `close`, test.py:537-554. -/
def close (s : Held) : Held × Except PyErr Unit :=
  if s.closed then (s, .ok ())
  else if s.stream then ({ s with closed := true }, .ok ())
  else match closeEach (s.held.getD []) s.done with
    | (l, .ok _) => ({ s with held := some (s.held.getD []), done := l, closed := true }, .ok ())
    | (l, .error e) => ({ s with held := some (s.held.getD []), done := l }, .error e)

/-- What is done with a builder: `files = d`, `form = ...`, `input_stream = ...` (with a stream or
with None), `files.add_file(name, file)`, and `close()`.  Used for test.py:451-478, 537-554. -/
inductive Op where
  | files (d : MD.MDict Str Nat)
  | form
  | stream (given : Bool)
  | add (name : Str) (file : Nat)
  | close

/-- One of these: test.py:451-462 for the attributes, 476-478 for the stream, 214-234 for
`add_file`. -/
def step (s : Held) : Op → Held × Except PyErr Unit
  | .files d => ({ s with held := some d, stream := false }, .ok ())
  | .form => ({ s with stream := false }, .ok ())
  | .stream b => ({ s with held := none, stream := b }, .ok ())
  | .add k h => if s.stream then (s, .error .attributeError) else ({ s with held := some (MD.add (s.held.getD []) k h) }, .ok ())
  | .close => close s

/-- A history.  Used for test.py:237-628. -/
def run (s : Held) (ops : List Op) : Held := ops.foldl (fun s o => (step s o).1) s

/-- A builder made with a dictionary of data, test.py:369-376; only the files matter here. -/
def ofData (data : List (Str × Nat)) : Held :=
  data.foldl (fun s p => (step s (.add p.1 p.2)).1) ⟨none, false, false, []⟩

/-- `create_environ`, test.py:867-886, and the same steps of `Client.open`, test.py:786-791; `env`
is what `get_environ` does.  An error of `close` takes the place of its result. -/
def createEnviron {E : Type} (data : List (Str × Nat)) (env : Except PyErr E) : Held × Except PyErr E :=
  match close (ofData data) with
  | (s, .ok _) => (s, env)
  | (s, .error e) => (s, .error e)

end Verif.BuilderFiles
