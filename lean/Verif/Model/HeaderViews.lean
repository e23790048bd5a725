import Verif.Model.Headers
import Verif.Utf8
/-!
Model of the parts of `Headers` (`/repo/verktyg/http/basic.py:125-496`) that
`Verif.Model.Headers` leaves out: comparison, slices, copies with the list objects behind
them, views, values that are not text, and dictionaries and the object itself as the
argument of `extend`.
-/
namespace Verif.HeaderViews
open Verif Verif.Headers

/-! ### Comparison -/

/-- `set(pairs)`: the distinct elements, in some order.  Used for basic.py:178-182. -/
def toSet (l : HList) : HList := l.foldl (fun s p => if s.contains p then s else s ++ [p]) []

/-- `a == b` for two sets, as CPython compares them: the sizes, then every element of the
first.  Used for basic.py:178-182. -/
def setEq (a b : HList) : Bool := a.length == b.length && a.all (fun p => b.contains p)

/-- `__eq__`, basic.py:178-182.  The numbers stand for the classes of the two objects. -/
def eq (c : Nat) (l : HList) (c' : Nat) (l' : HList) : Bool :=
  c' == c && setEq (toSet l') (toSet l)

/-- `__ne__`, basic.py:184-185. -/
def ne (c : Nat) (l : HList) (c' : Nat) (l' : HList) : Bool := !eq c l c' l'

/-! ### Slices -/

/-- A bound of a slice of a list of `n` elements.  Used for basic.py:159-164, 294-297,
445-455. -/
def bound (n : Nat) (b : Int) : Nat := if b < 0 then (b + n).toNat else min b.toNat n

/-- The lower bound, 0 if it is left out.  Used for basic.py:159-164, 294-297, 445-455. -/
def lo (n : Nat) : Option Int → Nat
  | none => 0
  | some b => bound n b

/-- The upper bound, `n` if it is left out.  Used for basic.py:159-164, 294-297, 445-455. -/
def hi (n : Nat) : Option Int → Nat
  | none => n
  | some b => bound n b

/-- `self._list[a:b]` in `__getitem__`, basic.py:159-164.  Simplification: no step. -/
def getSlice (l : HList) (a b : Option Int) : HList :=
  (l.take (hi l.length b)).drop (lo l.length a)

/-- `del headers[a:b]`, basic.py:294-297.  Simplification: no step. -/
def delSlice (l : HList) (a b : Option Int) : HList :=
  l.take (lo l.length a) ++ l.drop (max (lo l.length a) (hi l.length b))

/-- `headers[a:b] = pairs`, basic.py:445-455.  Simplification: no step. -/
def putSlice (l : HList) (a b : Option Int) (pairs : HList) : HList × Except PyErr Unit :=
  match validateAll pairs with
  | .error e => (l, .error e)
  | .ok _ =>
    (l.take (lo l.length a) ++ pairs ++ l.drop (max (lo l.length a) (hi l.length b)), .ok ())

/-! ### Views -/

section
variable (lower : Str → Str)

/-- `items(lower)`, basic.py:265-269. -/
def items (l : HList) (low : Bool) : HList :=
  l.map (fun p => if low then (lower p.1, p.2) else p)

/-- `keys(lower)`, basic.py:271-273. -/
def keys (l : HList) (low : Bool) : List Str := (items lower l low).map Prod.fst

/-- `values()`, basic.py:275-277. -/
def values (l : HList) : List Str := (items lower l false).map Prod.snd

/-- `len(headers)`, basic.py:354-355. -/
def len (l : HList) : Nat := l.length

/-- `headers[i]` for an index, basic.py:159-162. -/
def at' (l : HList) (i : Int) : Except PyErr (Str × Str) :=
  match pyIndex l.length i with
  | some n => match l[n]? with
    | some p => .ok p
    | none => .error .indexError
  | none => .error .indexError

/-- `ValueError` and its subclass `UnicodeError`.  Used for basic.py:218-224, 248-252. -/
def isValueError : PyErr → Bool
  | .valueError => true
  | .unicodeError => true
  | _ => false

/-- `get(key, default, type, as_bytes)`, basic.py:187-224.  `enc` is the encoding to latin-1
of `as_bytes=True`, or `Except.ok`; `conv` is `type`, or `Except.ok`. -/
def getConv {α β} (enc : Str → Except PyErr β) (conv : β → Except PyErr α) (default : α)
    (l : HList) (key : Str) : Except PyErr α :=
  match getItem lower l key with
  | none => .ok default
  | some v => match enc v with
    | .error e => .error e
    | .ok b => match conv b with
      | .ok a => .ok a
      | .error e => if isValueError e then .ok default else .error e

/-- `getlist(key, type, as_bytes)`, basic.py:226-255. -/
def getlistConv {α β} (enc : Str → Except PyErr β) (conv : β → Except PyErr α)
    (key : Str) : HList → Except PyErr (List α)
  | [] => .ok []
  | (k, v) :: rest =>
    if lower k = lower key then
      match enc v with
      | .error e => .error e
      | .ok b => match conv b with
        | .ok a => (getlistConv enc conv key rest).map (a :: ·)
        | .error e => if isValueError e then getlistConv enc conv key rest else .error e
    else getlistConv enc conv key rest

/-- `get_all(name)`, basic.py:257-263. -/
def getAll (l : HList) (name : Str) : List Str := getlist lower l name

/-! ### Values that are not text -/

/-- Values that can be given to `add` and `set`.  Models basic.py:117-122; other objects have
a text given by `str` and are not modelled. -/
inductive Val where
  | text (s : Str)
  | bytes (b : Bytes)
  | int (n : Int)
  deriving DecidableEq

/-- `unicodify_header_value`, basic.py:117-122. -/
def unicodify : Val → Str
  | .text s => s
  | .bytes b => Utf8.latin1 b
  | .int n => Py.intStr n

/-- `add(key, value)` and `add_header(key, value)`, basic.py:357-374, 385-391.
Simplification: no keyword arguments. -/
def addVal (l : HList) (key : Str) (v : Val) : HList × Except PyErr Unit :=
  add l key (unicodify v) []

/-- `set(key, value)` and `headers[key] = value`, basic.py:397-428, 445-457. -/
def setVal (l : HList) (key : Str) (v : Val) : HList × Except PyErr Unit :=
  Headers.set lower l key (unicodify v) []

/-- `setdefault(key, value)`, basic.py:430-443: the value is returned as it was given. -/
def setdefaultVal (l : HList) (key : Str) (v : Val) : HList × Except PyErr Val :=
  match getItem lower l key with
  | some s => (l, .ok (.text s))
  | none => match setVal lower l key v with
    | (l', .ok _) => (l', .ok v)
    | (l', .error e) => (l', .error e)

/-- The inner loop of `extend` over the list of values of one key, basic.py:286-287. -/
def addAll (l : HList) (key : Str) : List Val → HList × Except PyErr Unit
  | [] => (l, .ok ())
  | v :: vs => match addVal l key v with
    | (l', .ok _) => addAll l' key vs
    | (l', .error e) => (l', .error e)

/-- `extend(d)` for a dictionary, basic.py:283-289.  A value that is no list is a list of
one here. -/
def extendDict (l : HList) : List (Str × List Val) → HList × Except PyErr Unit
  | [] => (l, .ok ())
  | (k, vs) :: rest => match addAll l k vs with
    | (l', .ok _) => extendDict l' rest
    | (l', .error e) => (l', .error e)

end

/-- `h.extend(h)`, basic.py:290-292: the iterator stands at position `i` of the list that is
being extended.  `none` when the loop has not ended after `fuel` steps. -/
def extendSelf : (fuel : Nat) → HList → (i : Nat) → Option (HList × Except PyErr Unit)
  | 0, _, _ => none
  | fuel + 1, l, i => match l[i]? with
    | none => some (l, .ok ())
    | some p => match add l p.1 p.2 [] with
      | (l', .ok _) => extendSelf fuel l' (i + 1)
      | (l', .error e) => some (l', .error e)

/-! ### Objects -/

/-- List objects, the addresses of the `_list` of each `Headers` object, and those of lists
that the program itself holds.  Models basic.py:151-157. -/
structure State where
  heap : List HList
  headers : List Nat
  lists : List Nat

/-- Calls that change one object.  Models basic.py:294-311, 357-457. -/
inductive Call where
  | op (o : Op)
  | putSlice (a b : Option Int) (ps : HList)
  | delSlice (a b : Option Int)

/-- The new contents of the `_list` of the object.  Models basic.py:294-311, 357-457. -/
def callList (lower : Str → Str) (l : HList) : Call → HList
  | .op o => Headers.step lower l o
  | .putSlice a b ps => (putSlice l a b ps).1
  | .delSlice a b => delSlice l a b

/-- What a program can do with headers and lists of headers.  Variables are numbered in the
order in which they are made.  Models basic.py:151-164, 459-482. -/
inductive Instr where
  /-- `list(pairs)` -/
  | list (ps : HList)
  /-- `x.append(p)` for a list -/
  | push (x : Nat) (p : Str × Str)
  /-- `del x[:]` for a list -/
  | empty (x : Nat)
  /-- `Headers(x)` for a list -/
  | ofList (x : Nat)
  /-- `Headers(h)` -/
  | ofHeaders (h : Nat)
  /-- `Headers(iter(pairs))` -/
  | ofIter (ps : HList)
  /-- `h.copy()` and `copy.copy(h)` -/
  | copy (h : Nat)
  /-- `h[a:b]` -/
  | slice (h : Nat) (a b : Option Int)
  /-- `h.to_wsgi_list()` -/
  | toList (h : Nat)
  /-- a call on `h` -/
  | call (h : Nat) (c : Call)

/-- The list object at an address.  Used for basic.py:151-157. -/
def State.at (s : State) (a : Nat) : HList := (s.heap[a]?).getD []

/-- `self._list = []` and `self._list.extend(ps)` for a new object, basic.py:151-157. -/
def State.newHeaders (s : State) (ps : HList) : State :=
  { s with heap := s.heap ++ [ps], headers := s.headers ++ [s.heap.length] }

/-- A new list object that the program holds.  Used for basic.py:468-476. -/
def State.newList (s : State) (ps : HList) : State :=
  { s with heap := s.heap ++ [ps], lists := s.lists ++ [s.heap.length] }

/-- Change of a list object.  Used for basic.py:294-311, 357-457. -/
def State.write (s : State) (a : Nat) (l : HList) : State := { s with heap := s.heap.set a l }

/-- One instruction; one about a variable that does not exist does nothing.  Models
basic.py:151-164, 279-311, 357-482. -/
def State.exec (lower : Str → Str) (s : State) : Instr → State
  | .list ps => s.newList ps
  | .push x p => match s.lists[x]? with
    | some a => s.write a (s.at a ++ [p])
    | none => s
  | .empty x => match s.lists[x]? with
    | some a => s.write a []
    | none => s
  | .ofList x => match s.lists[x]? with
    | some a => s.newHeaders (s.at a)
    | none => s
  | .ofHeaders h => match s.headers[h]? with
    | some a => s.newHeaders (s.at a)
    | none => s
  | .ofIter ps => match extend [] ps with
    | (l, .ok _) => s.newHeaders l
    | (_, .error _) => s
  | .copy h => match s.headers[h]? with
    | some a => s.newHeaders (s.at a)
    | none => s
  | .slice h x y => match s.headers[h]? with
    | some a => s.newHeaders (getSlice (s.at a) x y)
    | none => s
  | .toList h => match s.headers[h]? with
    | some a => s.newList (s.at a)
    | none => s
  | .call h c => match s.headers[h]? with
    | some a => s.write a (callList lower (s.at a) c)
    | none => s

/-- A program.  Models basic.py:125-496. -/
def State.run (lower : Str → Str) (s : State) (p : List Instr) : State :=
  p.foldl (State.exec lower) s

end Verif.HeaderViews
