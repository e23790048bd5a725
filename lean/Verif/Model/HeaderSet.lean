import Verif.Model.Quote
/-!
Model of `HeaderSet` (`/repo/verktyg/http/basic.py:959-1110`).
-/
namespace Verif.HeaderSet
open Verif

/-- The two containers of a `HeaderSet`: `_headers` and `_set` (a set kept as a list of
distinct elements).  Models basic.py:959-1110. -/
structure HS where
  headers : List Str
  set : List Str
  deriving DecidableEq

/-- `set.add`.  Used for basic.py:972-975. -/
def setAdd (s : List Str) (x : Str) : List Str := if s.contains x then s else s ++ [x]

/-- `set.remove` of a present element.  Used for basic.py:981-997. -/
def setRemove (s : List Str) (x : Str) : List Str := s.filter (fun y => decide (y ≠ x))

section
variable (lower : Str → Str)

/-- `HeaderSet(headers)`, basic.py:972-975. -/
def init (headers : List Str) : HS :=
  ⟨headers, headers.foldl (fun s x => setAdd s (lower x)) []⟩

/-- The deletion loop of `remove`, basic.py:991-994: compares the lower-cased entry with the
argument as given. -/
def removeLoop (header : Str) : List Str → List Str
  | [] => []
  | k :: ks => if lower k = header then ks else k :: removeLoop header ks

/-- `remove(header)`, basic.py:981-997. -/
def remove (s : HS) (header : Str) : HS × Except PyErr Unit :=
  if s.set.contains (lower header) then
    (⟨removeLoop lower header s.headers, setRemove s.set (lower header)⟩, .ok ())
  else (s, .error .keyError)

/-- One iteration of `update`, basic.py:1006-1011; the flag is `inserted_any`. -/
def updateOne (s : HS × Bool) (header : Str) : HS × Bool :=
  if s.1.set.contains (lower header) then s
  else (⟨s.1.headers ++ [header], setAdd s.1.set (lower header)⟩, true)

/-- `update(iterable)`, basic.py:999-1013; the flag says whether `on_update` is called. -/
def update (s : HS) (hs : List Str) : HS × Bool := hs.foldl (updateOne lower) (s, false)

/-- `discard(header)`, basic.py:1015-1024. -/
def discard (s : HS) (header : Str) : HS := (remove lower s header).1

/-- `find(header)`, basic.py:1026-1036; `none` is -1. -/
def find (s : HS) (header : Str) : Option Nat :=
  s.headers.findIdx? (fun h => decide (lower h = lower header))

/-- `del hs[idx]` for a non-negative index, basic.py:1077-1081. -/
def delIdx (s : HS) (i : Nat) : HS × Except PyErr Unit :=
  match s.headers[i]? with
  | none => (s, .error .indexError)
  | some rv =>
    if s.set.contains (lower rv) then
      (⟨s.headers.eraseIdx i, setRemove s.set (lower rv)⟩, .ok ())
    else (⟨s.headers.eraseIdx i, s.set⟩, .error .keyError)

/-- `hs[idx] = value` for a non-negative index, basic.py:1083-1089. -/
def setIdx (s : HS) (i : Nat) (v : Str) : HS × Except PyErr Unit :=
  match s.headers[i]? with
  | none => (s, .error .indexError)
  | some old =>
    if s.set.contains (lower old) then
      (⟨s.headers.set i v, setAdd (setRemove s.set (lower old)) (lower v)⟩, .ok ())
    else (s, .error .keyError)

/-- `header in hs`, basic.py:1091-1092. -/
def contains (s : HS) (header : Str) : Bool := s.set.contains (lower header)

/-- `len(hs)`, basic.py:1094-1095. -/
def len (s : HS) : Nat := s.set.length

/-- `to_header()`, basic.py:1070-1072. -/
def toHeader (s : HS) : Str :=
  Py.join s%", " (s.headers.map (fun h => Quote.quoteHeaderValue h))

/-- Mutating calls.  Models basic.py:959-1110. -/
inductive Op where
  | add (h : Str)
  | remove (h : Str)
  | discard (h : Str)
  | update (hs : List Str)
  | delIdx (i : Nat)
  | setIdx (i : Nat) (v : Str)
  | clear

/-- Effect of a call.  Models basic.py:959-1110. -/
def step (s : HS) : Op → HS
  | .add h => (update lower s [h]).1
  | .remove h => (remove lower s h).1
  | .discard h => discard lower s h
  | .update hs => (update lower s hs).1
  | .delIdx i => (delIdx lower s i).1
  | .setIdx i v => (setIdx lower s i v).1
  | .clear => ⟨[], []⟩

/-- Whether the call invokes `on_update` (basic.py:995-996, 1012-1013, 1050-1055,
1077-1081, 1083-1089). -/
def notifies (s : HS) : Op → Bool
  | .add h => (update lower s [h]).2
  | .remove h => (remove lower s h).2.toOption.isSome
  | .discard h => (remove lower s h).2.toOption.isSome
  | .update hs => (update lower s hs).2
  | .delIdx i => (delIdx lower s i).2.toOption.isSome
  | .setIdx i v => (setIdx lower s i v).2.toOption.isSome
  | .clear => true

/-- A history.  Models basic.py:959-1110. -/
def run (s : HS) (ops : List Op) : HS := ops.foldl (step lower) s

end
end Verif.HeaderSet
