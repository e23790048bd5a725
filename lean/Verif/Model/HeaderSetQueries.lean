import Verif.Model.HeaderSet
import Verif.Model.Headers
/-!
Model of the questions to a `HeaderSet` and of the use of any index
(`/repo/verktyg/http/basic.py:959-1110`).
-/
namespace Verif.HeaderSet
open Verif

section
variable (lower : Str → Str)

/-- `index(header)`, basic.py:1038-1048. -/
def index (s : HS) (header : Str) : Except PyErr Nat :=
  match find lower s header with
  | some i => .ok i
  | none => .error .indexError

/-- `as_set(preserve_casing)`, basic.py:1057-1068: the distinct elements, in some order. -/
def asSet (s : HS) (preserve : Bool) : List Str :=
  if preserve then s.headers.foldl setAdd [] else s.set.foldl setAdd []

/-- `hs[i]`, basic.py:1074-1075. -/
def getIdx (s : HS) (i : Int) : Except PyErr Str :=
  match Headers.pyIndex s.headers.length i with
  | some n => match s.headers[n]? with
    | some h => .ok h
    | none => .error .indexError
  | none => .error .indexError

/-- `del hs[i]` for any index, basic.py:1077-1081. -/
def delAt (s : HS) (i : Int) : HS × Except PyErr Unit :=
  match Headers.pyIndex s.headers.length i with
  | some n => delIdx lower s n
  | none => (s, .error .indexError)

/-- `hs[i] = value` for any index, basic.py:1083-1089. -/
def setAt (s : HS) (i : Int) (v : Str) : HS × Except PyErr Unit :=
  match Headers.pyIndex s.headers.length i with
  | some n => setIdx lower s n v
  | none => (s, .error .indexError)

/-- `list(hs)`, basic.py:1097-1098. -/
def iter (s : HS) : List Str := s.headers

/-- `bool(hs)`: Python 3 does not know `__nonzero__` (basic.py:1100-1101) and asks
`__len__`, basic.py:1094-1095. -/
def truth (s : HS) : Bool := len s != 0

/-- Calls that change a `HeaderSet`, by any index.  Models basic.py:959-1110. -/
inductive Change where
  | call (o : Op)
  | delAt (i : Int)
  | setAt (i : Int) (v : Str)

/-- Effect of a call.  Models basic.py:959-1110. -/
def change (s : HS) : Change → HS
  | .call o => step lower s o
  | .delAt i => (delAt lower s i).1
  | .setAt i v => (setAt lower s i v).1

/-- A history.  Models basic.py:959-1110. -/
def changes (s : HS) (cs : List Change) : HS := cs.foldl (change lower) s

end
end Verif.HeaderSet
