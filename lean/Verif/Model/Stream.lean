import Verif.Py
/-!
Model of `LimitedStream` (`/repo/verktyg/wsgi.py:781-932`).
-/
namespace Verif.Stream
open Verif

/-- The wrapped stream: the bytes it will still deliver, and for each of the coming calls
whether it fails with an `IOError` (no more failures once the list is used up).
Used for wsgi.py:831-838. -/
structure Src where
  data : Bytes
  fails : List Bool
  deriving DecidableEq

/-- Length of the first line including its newline (byte 10).  Used for wsgi.py:884-899. -/
def lineLen : Bytes → Nat
  | [] => 0
  | c :: cs => if c = 10 then 1 else lineLen cs + 1

/-- `stream.read(n)`: `none` if it raises; a negative size means everything.
Used for wsgi.py:831-838. -/
def Src.read (s : Src) (n : Int) : Option Bytes × Src :=
  if s.fails.headD false then (none, ⟨s.data, s.fails.tail⟩)
  else
    let k := if n < 0 then s.data.length else n.toNat
    (some (s.data.take k), ⟨s.data.drop k, s.fails.tail⟩)

/-- `stream.readline(n)`: at most `n` bytes of the next line; a negative size means no
bound.  Used for wsgi.py:884-899. -/
def Src.readline (s : Src) (n : Int) : Option Bytes × Src :=
  if s.fails.headD false then (none, ⟨s.data, s.fails.tail⟩)
  else
    let k := if n < 0 then lineLen s.data else min n.toNat (lineLen s.data)
    (some (s.data.take k), ⟨s.data.drop k, s.fails.tail⟩)

/-- A `LimitedStream`: the wrapped stream, `_pos` and `limit`.  Models wsgi.py:781-932. -/
structure LS where
  src : Src
  pos : Int
  limit : Int
  deriving DecidableEq

/-- `on_exhausted`, wsgi.py:831-838.  An `IOError` of the wrapped stream goes through to
the caller (the model has one error for it, `clientDisconnected`). -/
def onExhausted (s : LS) : LS × Except PyErr Bytes :=
  match s.src.read 0 with
  | (some b, src) => ({ s with src := src }, .ok b)
  | (none, src) => ({ s with src := src }, .error .clientDisconnected)

/-- The effective size of `read`, wsgi.py:872-873. -/
def readSize (limit : Int) : Option Int → Int
  | none => limit
  | some n => if n = -1 then limit else n

/-- `read(size)`, wsgi.py:864-882. -/
def read (s : LS) (size : Option Int) : LS × Except PyErr Bytes :=
  if s.pos ≥ s.limit then onExhausted s
  else
    let toRead := min (s.limit - s.pos) (readSize s.limit size)
    match s.src.read toRead with
    | (none, src) => ({ s with src := src }, .error .clientDisconnected)
    | (some r, src) =>
      if toRead ≠ 0 ∧ (r.length : Int) ≠ toRead then ({ s with src := src }, .error .clientDisconnected)
      else ({ s with src := src, pos := s.pos + r.length }, .ok r)

/-- The effective size of `readline`, wsgi.py:888-891. -/
def lineSize (room : Int) : Option Int → Int
  | none => room
  | some n => min n room

/-- `readline(size)`, wsgi.py:884-899. -/
def readline (s : LS) (size : Option Int) : LS × Except PyErr Bytes :=
  if s.pos ≥ s.limit then onExhausted s
  else
    let size := lineSize (s.limit - s.pos) size
    match s.src.readline size with
    | (none, src) => ({ s with src := src }, .error .clientDisconnected)
    | (some l, src) =>
      if size ≠ 0 ∧ l = [] then ({ s with src := src }, .error .clientDisconnected)
      else ({ s with src := src, pos := s.pos + l.length }, .ok l)

/-- The loop of `readlines`, wsgi.py:913-920; the fuel bounds the number of iterations
(each reads at least one byte or raises). -/
def readlinesGo : Nat → LS → Option Int → Int → Int → List Bytes → LS × Except PyErr (List Bytes)
  | 0, s, _, _, _, acc => (s, .ok acc)
  | n + 1, s, size, lastPos, stop, acc =>
    let size := size.map fun z => z - (lastPos - s.pos)
    if s.pos ≥ stop then (s, .ok acc)
    else match readline s size with
      | (s', .ok l) => readlinesGo n s' size (if size.isSome then s'.pos else lastPos) stop (acc ++ [l])
      | (s', .error e) => (s', .error e)

/-- The end position of `readlines`, wsgi.py:909-912. -/
def stopAt (s : LS) : Option Int → Int
  | some n => min s.limit (s.pos + n)
  | none => s.limit

/-- `readlines(size)`, wsgi.py:901-921. -/
def readlines (s : LS) (size : Option Int) : LS × Except PyErr (List Bytes) :=
  let stop := stopAt s size
  readlinesGo ((stop - s.pos).toNat + 1) s size s.pos stop []

/-- The loop of `exhaust`, wsgi.py:857-862, for a positive chunk size. -/
def exhaustGo : Nat → LS → Int → Int → LS × Except PyErr Unit
  | 0, s, _, _ => (s, .ok ())
  | n + 1, s, toRead, chunk =>
    if toRead > 0 then
      let chunk := min toRead chunk
      match read s (some chunk) with
      | (s', .ok _) => exhaustGo n s' (toRead - chunk) chunk
      | (s', .error e) => (s', .error e)
    else (s, .ok ())

/-- `exhaust(chunk_size)`, wsgi.py:849-862. -/
def exhaust (s : LS) (chunk : Int) : LS × Except PyErr Unit :=
  exhaustGo ((s.limit - s.pos).toNat + 1) s (s.limit - s.pos) chunk

/-- Calls on a `LimitedStream`.  Models wsgi.py:781-932. -/
inductive Op where
  | read (size : Option Int)
  | readline (size : Option Int)
  | readlines (size : Option Int)
  | next
  | exhaust (chunk : Int)
  deriving DecidableEq

/-- One call; the result is what was handed to the caller, in order.  `next` is
`readline()`, with `StopIteration` for an empty line (wsgi.py:928-932). -/
def step (s : LS) : Op → LS × Except PyErr (List Bytes)
  | .read n => let r := read s n; (r.1, r.2.map fun b => [b])
  | .readline n => let r := readline s n; (r.1, r.2.map fun b => [b])
  | .readlines n => readlines s n
  | .next =>
    match readline s none with
    | (s', .ok l) => if l = [] then (s', .error .stopIteration) else (s', .ok [l])
    | (s', .error e) => (s', .error e)
  | .exhaust c => let r := exhaust s c; (r.1, r.2.map fun _ => [])

/-- The state after a history of calls (the caller goes on after errors).
Models wsgi.py:781-932. -/
def run (s : LS) (ops : List Op) : LS := ops.foldl (fun s o => (step s o).1) s

/-- The result of each call of a history.  Models wsgi.py:781-932. -/
def results : LS → List Op → List (Except PyErr (List Bytes))
  | _, [] => []
  | s, o :: ops => (step s o).2 :: results (step s o).1 ops

end Verif.Stream
