import Verif.Model.Quote
/-!
Model of `Headers` (`/repo/verktyg/http/basic.py:125-496`) and of the header filters
(765-816).  `lower` stands for `str.lower` and is a parameter everywhere.
-/
namespace Verif.Headers
open Verif

/-- The `_list` attribute: name/value pairs in order.  Models basic.py:125-496. -/
abbrev HList := List (Str × Str)

section
variable (lower : Str → Str)

/-- Lookup loop of `__getitem__`, basic.py:159-176; `none` is the `KeyError`. -/
def getItem (l : HList) (key : Str) : Option Str :=
  match l with
  | [] => none
  | (k, v) :: rest => if lower k = lower key then some v else getItem rest key

/-- `get(key)` with `default=None` and no conversion, basic.py:187-224. -/
def get (l : HList) (key : Str) : Option Str := getItem lower l key

/-- `get(key, type=...)`, basic.py:214-224: `conv` returns `none` for `ValueError`. -/
def getTyped {α} (l : HList) (key : Str) (conv : Str → Option α) (default : Option α) : Option α :=
  match getItem lower l key with
  | none => default
  | some v => match conv v with
    | none => default
    | some a => some a

/-- `getlist(key)` without conversion, basic.py:226-255. -/
def getlist (l : HList) (key : Str) : List Str :=
  match l with
  | [] => []
  | (k, v) :: rest =>
    if lower k = lower key then v :: getlist rest key else getlist rest key

/-- `key in headers`, basic.py:340-346. -/
def contains (l : HList) (key : Str) : Bool := (getItem lower l key).isSome

/-- `_options_header_vkw`, basic.py:111-114. -/
def optionsHeaderVkw (value : Str) (kw : List (Str × Option Str)) : Str :=
  Quote.dumpOptionsHeader (some value)
    ((kw.map (fun p => (Py.replace s%"_" s%"-" p.1, p.2))).foldl
      (fun d p => Quote.dictSet d p.1 p.2) [])

/-- The value normalisation at the start of `add` and `set`, basic.py:370-372, 410-412.
Values are already text, so `unicodify_header_value` (117-122) is the identity. -/
def effValue (value : Str) (kw : List (Str × Option Str)) : Str :=
  if kw = [] then value else optionsHeaderVkw value kw

/-- `_validate_value`, basic.py:376-383; the type check always passes here. -/
def validate (value : Str) : Except PyErr Unit :=
  if value.contains '\n' || value.contains '\r' then .error .valueError else .ok ()

/-- `add(key, value, **kw)`, basic.py:357-374. -/
def add (l : HList) (key value : Str) (kw : List (Str × Option Str)) : HList × Except PyErr Unit :=
  match validate (effValue value kw) with
  | .error e => (l, .error e)
  | .ok _ => (l ++ [(key, effValue value kw)], .ok ())

/-- The `for`/`else` loop of `set`, basic.py:417-428: `none` when no entry matches. -/
def setLoop (l : HList) (key value : Str) : Option HList :=
  match l with
  | [] => none
  | (k, v) :: rest =>
    if lower k = lower key then
      some ((key, value) :: rest.filter (fun t => decide (lower t.1 ≠ lower key)))
    else (setLoop rest key value).map (fun r => (k, v) :: r)

/-- `set(key, value, **kw)`, basic.py:397-428. -/
def set (l : HList) (key value : Str) (kw : List (Str × Option Str)) : HList × Except PyErr Unit :=
  match validate (effValue value kw) with
  | .error e => (l, .error e)
  | .ok _ =>
    if l.isEmpty then (l ++ [(key, effValue value kw)], .ok ())
    else match setLoop lower l key (effValue value kw) with
      | some r => (r, .ok ())
      | none => (l ++ [(key, effValue value kw)], .ok ())

/-- `__delitem__(key)` for a name, and `remove`, basic.py:294-311. -/
def delKey (l : HList) (key : Str) : HList :=
  l.filter (fun t => decide (lower t.1 ≠ lower key))

/-- Position meant by a Python list index, `none` for `IndexError`.  Used for basic.py:294-297. -/
def pyIndex (n : Nat) (i : Int) : Option Nat :=
  if 0 ≤ i ∧ i < n then some i.toNat
  else if i < 0 ∧ -(n : Int) ≤ i then some (i + n).toNat
  else none

/-- `del headers[i]` for an index, basic.py:294-297. -/
def delIndex (l : HList) (i : Int) : HList × Except PyErr Unit :=
  match pyIndex l.length i with
  | some n => (l.eraseIdx n, .ok ())
  | none => (l, .error .indexError)

/-- `headers[i] = (k, v)` for an index, basic.py:445-457. -/
def setIndex (l : HList) (i : Int) (key value : Str) : HList × Except PyErr Unit :=
  match validate value with
  | .error e => (l, .error e)
  | .ok _ => match pyIndex l.length i with
    | some n => (l.set n (key, value), .ok ())
    | none => (l, .error .indexError)

/-- Validation loop of the slice assignment, basic.py:451. -/
def validateAll : HList → Except PyErr Unit
  | [] => .ok ()
  | p :: ps => match validate p.2 with
    | .error e => .error e
    | .ok _ => validateAll ps

/-- `headers[i:j] = pairs` for non-negative bounds, basic.py:445-457.
Simplification: no negative bounds and no step. -/
def setSlice (l : HList) (i j : Nat) (pairs : HList) : HList × Except PyErr Unit :=
  match validateAll pairs with
  | .error e => (l, .error e)
  | .ok _ => (l.take i ++ pairs ++ l.drop (max i j), .ok ())

/-- `extend(iterable)` for an iterable of pairs, basic.py:279-292.  The dict form is the
same loop over the flattened items. -/
def extend (l : HList) : HList → HList × Except PyErr Unit
  | [] => (l, .ok ())
  | p :: ps => match add l p.1 p.2 [] with
    | (l', .ok _) => extend l' ps
    | (l', .error e) => (l', .error e)

/-- `pop(name, default)`, basic.py:313-334. -/
def popKey (l : HList) (key : Str) (default : Option Str) : HList × Except PyErr Str :=
  match getItem lower l key with
  | some v => (delKey lower l key, .ok v)
  | none => match default with
    | some d => (l, .ok d)
    | none => (l, .error .keyError)

/-- `pop()`/`popitem()`, basic.py:313-338: the last entry. -/
def popLast (l : HList) : HList × Except PyErr (Str × Str) :=
  match l.getLast? with
  | some p => (l.dropLast, .ok p)
  | none => (l, .error .indexError)

/-- `pop(i)` for an index, basic.py:313-334. -/
def popIndex (l : HList) (i : Int) : HList × Except PyErr (Str × Str) :=
  match pyIndex l.length i with
  | some n => match l[n]? with
    | some p => (l.eraseIdx n, .ok p)
    | none => (l, .error .indexError)
  | none => (l, .error .indexError)

/-- `setdefault(key, value)`, basic.py:430-443. -/
def setdefault (l : HList) (key value : Str) : HList × Except PyErr Str :=
  match getItem lower l key with
  | some v => (l, .ok v)
  | none => match set lower l key value [] with
    | (l', .ok _) => (l', .ok value)
    | (l', .error e) => (l', .error e)

/-- `str(headers)`, basic.py:484-490. -/
def toText (l : HList) : Str :=
  Py.join s%"\r\n" (l.map (fun p => p.1 ++ s%": " ++ p.2) ++ [s%"\r\n"])

/-- `Headers(defaults)` for a list or another `Headers`, basic.py:151-157: the values are
copied without validation. -/
def initList (defaults : HList) : HList := defaults

/-- The public mutating calls of `Headers`.  Models basic.py:125-496. -/
inductive Op where
  | add (k v : Str) (kw : List (Str × Option Str))
  | set (k v : Str) (kw : List (Str × Option Str))
  | setIndex (i : Int) (k v : Str)
  | setSlice (i j : Nat) (ps : HList)
  | delKey (k : Str)
  | delIndex (i : Int)
  | extend (ps : HList)
  | popKey (k : Str) (default : Option Str)
  | popLast
  | popIndex (i : Int)
  | setdefault (k v : Str)
  | clear

/-- Effect of one call on the stored list.  Models basic.py:125-496. -/
def step (l : HList) : Op → HList
  | .add k v kw => (add l k v kw).1
  | .set k v kw => (set lower l k v kw).1
  | .setIndex i k v => (setIndex l i k v).1
  | .setSlice i j ps => (setSlice l i j ps).1
  | .delKey k => delKey lower l k
  | .delIndex i => (delIndex l i).1
  | .extend ps => (extend l ps).1
  | .popKey k d => (popKey lower l k d).1
  | .popLast => (popLast l).1
  | .popIndex i => (popIndex l i).1
  | .setdefault k v => (setdefault lower l k v).1
  | .clear => []

/-- Whether the call raises.  Models basic.py:125-496. -/
def raises (l : HList) : Op → Bool
  | .add k v kw => (add l k v kw).2.toOption.isNone
  | .set k v kw => (set lower l k v kw).2.toOption.isNone
  | .setIndex i k v => (setIndex l i k v).2.toOption.isNone
  | .setSlice i j ps => (setSlice l i j ps).2.toOption.isNone
  | .delKey _ => false
  | .delIndex i => (delIndex l i).2.toOption.isNone
  | .extend ps => (extend l ps).2.toOption.isNone
  | .popKey k d => (popKey lower l k d).2.toOption.isNone
  | .popLast => (popLast l).2.toOption.isNone
  | .popIndex i => (popIndex l i).2.toOption.isNone
  | .setdefault k v => (setdefault lower l k v).2.toOption.isNone
  | .clear => false

/-- A history of calls.  Models basic.py:125-496. -/
def run (l : HList) (ops : List Op) : HList := ops.foldl (step lower) l

/-- `_entity_headers`, basic.py:37-41. -/
def entityHeaders : List Str :=
  [s%"allow", s%"content-encoding", s%"content-language", s%"content-length",
   s%"content-location", s%"content-md5", s%"content-range", s%"content-type",
   s%"expires", s%"last-modified"]

/-- `_hop_by_hop_headers`, basic.py:42-46. -/
def hopByHopHeaders : List Str :=
  [s%"connection", s%"keep-alive", s%"proxy-authenticate", s%"proxy-authorization",
   s%"te", s%"trailer", s%"transfer-encoding", s%"upgrade"]

/-- `is_entity_header`, basic.py:797-805. -/
def isEntityHeader (h : Str) : Bool := entityHeaders.contains (lower h)

/-- `is_hop_by_hop_header`, basic.py:808-816. -/
def isHopByHopHeader (h : Str) : Bool := hopByHopHeaders.contains (lower h)

/-- `remove_entity_headers(headers, allowed)` on a list, basic.py:765-782.
Simplification: on a `Headers` object the slice assignment also re-validates values. -/
def removeEntityHeaders (l : HList) (allowed : List Str) : HList :=
  l.filter (fun p => !isEntityHeader lower p.1 || (allowed.map lower).contains (lower p.1))

/-- `remove_hop_by_hop_headers(headers)` on a list, basic.py:784-796. -/
def removeHopByHopHeaders (l : HList) : HList :=
  l.filter (fun p => !isHopByHopHeader lower p.1)

end
end Verif.Headers
