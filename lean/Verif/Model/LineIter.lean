import Verif.Py
/-!
Model of `make_line_iter` and `make_chunk_iter` (`/repo/verktyg/wsgi.py:658-778`).

The iterators are modelled by the list of what they yield.  The input is the sequence of
blocks that `_make_chunk_iter` (wsgi.py:658-677) hands on: the items of an iterable without
the empty ones, or what successive `read(buffer_size)` calls of a stream return up to the
first empty block.
-/
namespace Verif.LineIter
open Verif

/-- A block read from the input: text or bytes.  Used for wsgi.py:665-669. -/
inductive Block where
  | text (s : Str)
  | bytes (b : Bytes)
  deriving DecidableEq

/-- `_make_chunk_iter` over an iterable, wsgi.py:665-669. -/
def ofIterable (xs : List Block) : List Block :=
  xs.filter fun | .text s => s ≠ [] | .bytes b => b ≠ []

/-- `_make_chunk_iter` over a stream whose successive reads return `xs`, wsgi.py:672-677. -/
def ofStream : List Block → List Block
  | [] => []
  | .text [] :: _ => []
  | .bytes [] :: _ => []
  | x :: xs => x :: ofStream xs

/-- The characters at which `str.splitlines` breaks.  Used for wsgi.py:703-717. -/
def isBreak (c : Char) : Bool :=
  c.toNat ∈ [0x0a, 0x0b, 0x0c, 0x0d, 0x1c, 0x1d, 0x1e, 0x85, 0x2028, 0x2029]

/-- `str.splitlines(True)`; `cur` is the line read so far.  Used for wsgi.py:703-717. -/
def splitlinesGo (cur : Str) : Str → List Str
  | [] => if cur = [] then [] else [cur]
  | '\r' :: '\n' :: cs => (cur ++ ['\r', '\n']) :: splitlinesGo [] cs
  | c :: cs => if isBreak c then (cur ++ [c]) :: splitlinesGo [] cs else splitlinesGo (cur ++ [c]) cs

/-- Used for wsgi.py:703-717. -/
def splitlines (s : Str) : List Str := splitlinesGo [] s

/-- `item and item[-1:] in '\r\n'`, wsgi.py:712. -/
def endsLine (item : Str) : Bool :=
  match item.getLast? with
  | some c => c = '\r' || c = '\n'
  | none => false

/-- The inner loop of `_iter_basic_lines`, wsgi.py:710-714: what is yielded, and `new_buf`. -/
def scan (newBuf : List Str) : List Str → List Str × List Str
  | [] => ([], newBuf)
  | item :: items =>
    let newBuf := newBuf ++ [item]
    if endsLine item then
      let r := scan [] items
      (newBuf.flatten :: r.1, r.2)
    else scan newBuf items

/-- `_iter_basic_lines`, wsgi.py:703-717.  For a block of bytes the test `in '\r\n'` of the
first item raises `TypeError`. -/
def basicLines (buffer : List Str) : List Block → List Str × Except PyErr Unit
  | [] => (if buffer = [] then [] else [buffer.flatten], .ok ())
  | .text d :: ds =>
    let r := scan [] (buffer ++ splitlines d)
    let rest := basicLines r.2 ds
    (r.1 ++ rest.1, rest.2)
  | .bytes _ :: _ => ([], .error .typeError)

/-- The merging loop, wsgi.py:721-730, when the basic lines end with `fin` (at an error the
pending line is not yielded). -/
def merge (fin : Except PyErr Unit) (previous : Str) : List Str → List Str
  | [] => match fin with
    | .ok () => if previous = [] then [] else [previous]
    | .error _ => []
  | item :: items =>
    if item = ['\n'] ∧ previous.getLast? = some '\r' then
      (previous ++ item) :: merge fin [] items
    else (if previous = [] then [] else [previous]) ++ merge fin item items

/-- `make_line_iter`, wsgi.py:680-730: the lines yielded and how the iteration ends. -/
def makeLineIter (blocks : List Block) : List Str × Except PyErr Unit :=
  let b := basicLines [] blocks
  (merge b.2 [] b.1, b.2)

/-- The first occurrence of `sep`: what precedes and what follows it.
Used for wsgi.py:757,760. -/
def cut {α} [DecidableEq α] (sep : List α) : List α → Option (List α × List α)
  | [] => if sep = [] then some ([], []) else none
  | c :: cs =>
    if sep <+: c :: cs then some ([], (c :: cs).drop sep.length)
    else (cut sep cs).map fun r => (c :: r.1, r.2)

/-- `re.compile('(' + re.escape(separator) + ')').split`, wsgi.py:757,760, for a non-empty
separator: the pieces with the separators between them.  The fuel bounds the number of
separators. -/
def splitKeep {α} [DecidableEq α] (sep : List α) : Nat → List α → List (List α)
  | 0, d => [d]
  | n + 1, d =>
    match cut sep d with
    | none => [d]
    | some (p, r) => p :: sep :: splitKeep sep n r

/-- The inner loop of `make_chunk_iter`, wsgi.py:770-775. -/
def cscan {α} [DecidableEq α] (sep : List α) (newBuf : List (List α)) :
    List (List α) → List (List α) × List (List α)
  | [] => ([], newBuf)
  | item :: items =>
    if item = sep then
      let r := cscan sep [] items
      (newBuf.flatten :: r.1, r.2)
    else cscan sep (newBuf ++ [item]) items

/-- The outer loop of `make_chunk_iter`, wsgi.py:763-778. -/
def chunkGo {α} [DecidableEq α] (sep : List α) (buffer : List (List α)) : List (List α) → List (List α)
  | [] => if buffer = [] then [] else [buffer.flatten]
  | d :: ds =>
    let r := cscan sep [] (buffer ++ splitKeep sep d.length d)
    r.1 ++ chunkGo sep r.2 ds

/-- `make_chunk_iter`, wsgi.py:733-778, for non-empty blocks and a non-empty separator of one
type, text or bytes (with nothing to read it returns at once, as the loop does). -/
def makeChunkIter {α} [DecidableEq α] (sep : List α) (blocks : List (List α)) : List (List α) :=
  chunkGo sep [] (blocks.filter (· ≠ []))

end Verif.LineIter
