import Verif.Py
/-!
Model of `ClosingIterator`, `wrap_file` and `FileWrapper` (`/repo/verktyg/wsgi.py:555-656`) and of
`BaseRequest.close` (`/repo/verktyg/requests.py:212-230`).
-/
namespace Verif.WrapFile
open Verif

/-- A file: the bytes it still has, and for each of the coming reads the most it will give at
once, at least one byte (a read of a pipe or socket may be short).  Used for wsgi.py:651-652. -/
structure File where
  data : Bytes
  short : List Nat
  deriving DecidableEq

/-- How many bytes `read(n)` gives; a negative size means everything.  Used for wsgi.py:651-652. -/
def File.amount (f : File) (n : Int) : Nat :=
  if n < 0 then f.data.length
  else match f.short with
    | [] => n.toNat
    | s :: _ => min n.toNat (max 1 s)

/-- `file.read(n)`.  Used for wsgi.py:651-652. -/
def File.read (f : File) (n : Int) : Bytes × File :=
  (f.data.take (f.amount n), ⟨f.data.drop (f.amount n), f.short.tail⟩)

/-- `FileWrapper.__next__`, wsgi.py:651-655; `none` is `StopIteration`. -/
def next (bufferSize : Int) (f : File) : Option Bytes × File :=
  let r := f.read bufferSize
  if r.1 ≠ [] then (some r.1, r.2) else (none, r.2)

/-- What a server gets that takes blocks until there are no more, but at most `n` of them;
the flag tells whether the end was seen.  Used for wsgi.py:648-655. -/
def blocks (bufferSize : Int) : Nat → File → List Bytes × Bool
  | 0, _ => ([], false)
  | n + 1, f => match next bufferSize f with
    | (none, _) => ([], true)
    | (some b, f') => (b :: (blocks bufferSize n f').1, (blocks bufferSize n f').2)

/-- `wrap_file`, wsgi.py:602-618: the wrapper of the server if there is one.  `W` is what it
makes; the size is passed on. -/
def wrapFile {W : Type} (server : Option (File → Int → W)) (wrapper : File → Int → W) (f : File) (bufferSize : Int) : W :=
  (server.getD wrapper) f bufferSize

/-- The callbacks of a `ClosingIterator`, wsgi.py:578-590: none, a single function or a list, after
the `close` of the iterator if it has one. -/
inductive Callbacks (C : Type) where
  | none
  | one (c : C)
  | many (l : List C)

/-- `ClosingIterator.__init__`, wsgi.py:578-590: the functions `close` will call. -/
def callbacks {C : Type} (iterClose : Option C) (cs : Callbacks C) : List C :=
  let l := match cs with
    | .none => []
    | .one c => [c]
    | .many l => l
  match iterClose with
  | some c => c :: l
  | none => l

/-- A loop that calls functions until one raises: the functions called, and the exception.
Models wsgi.py:598-600 and requests.py:226-230. -/
def callAll {C : Type} (raises : C → Option PyErr) : List C → List C × Except PyErr Unit
  | [] => ([], .ok ())
  | c :: cs => match raises c with
    | some e => ([c], .error e)
    | none => (c :: (callAll raises cs).1, (callAll raises cs).2)

/-- `ClosingIterator.close`, wsgi.py:598-600. -/
def close {C : Type} (raises : C → Option PyErr) (iterClose : Option C) (cs : Callbacks C) : List C × Except PyErr Unit :=
  callAll raises (callbacks iterClose cs)

/-- `BaseRequest.close`, requests.py:220-230: the files that were read, if any, then the functions
of `call_on_close`. -/
def requestClose {C : Type} (raises : C → Option PyErr) (files : Option (List C)) (onClose : List C) :
    List C × Except PyErr Unit :=
  match callAll raises (files.getD []) with
  | (l, .error e) => (l, .error e)
  | (l, .ok _) => (l ++ (callAll raises onClose).1, (callAll raises onClose).2)

end Verif.WrapFile
