import Verif.Py
import Verif.Dict
/-!
Model of `MultiDict` and its relatives (`/repo/verktyg/datastructures.py`).

Keys are any type with decidable equality, values any type.  A dict is an item list in
insertion order (`Verif.Dict`).
-/
namespace Verif.MD
open Verif
variable {K V : Type} [DecidableEq K]

/-- Contents of a `MultiDict`: `dict` from keys to lists of values.
Models datastructures.py:277-599. -/
abbrev MDict (K V : Type) := List (K × List V)

/-- `add(key, value)`, datastructures.py:372-380. -/
def add (d : MDict K V) (k : K) (v : V) : MDict K V := Dict.set d k ((Dict.get d k).getD [] ++ [v])

/-- `MultiDict.__init__` from pairs, datastructures.py:324-340. -/
def ofPairs (ps : List (K × V)) : MDict K V := ps.foldl (fun d p => add d p.1 p.2) []

/-- `MultiDict.__init__(mapping)` from a plain dict, datastructures.py:324-340: `inl` is a
single value, `inr` a tuple or list. -/
def ofDict (m : List (K × (V ⊕ List V))) : MDict K V :=
  m.foldl (fun d p => Dict.set d p.1 (match p.2 with | .inl v => [v] | .inr l => l)) []

/-- `l[0]`.  Used for datastructures.py:349-360. -/
def idx0 (l : List V) : Except PyErr V :=
  match l with
  | v :: _ => .ok v
  | [] => .error .indexError

/-- `__getitem__`, datastructures.py:349-360 (`BadRequestKeyError` is a `KeyError`). -/
def getitem (d : MDict K V) (k : K) : Except PyErr V :=
  match Dict.get d k with
  | some l => idx0 l
  | none => .error .keyError

/-- `get(key, default, type)`, `TypeConversionDict.get`, datastructures.py:235-264.  `conv`
models `type`: `none` stands for a `ValueError`. -/
def get {W : Type} (d : MDict K V) (k : K) (dflt : W) (conv : V → Option W) : Except PyErr W :=
  match getitem d k with
  | .ok v => .ok ((conv v).getD dflt)
  | .error .keyError => .ok dflt
  | .error e => .error e

/-- `getlist(key)`, datastructures.py:382-408 with `type=None`. -/
def getlist (d : MDict K V) (k : K) : List V := (Dict.get d k).getD []

/-- `getlist(key, type)`.  datastructures.py:382-408. -/
def getlistConv {W : Type} (d : MDict K V) (k : K) (conv : V → Option W) : List W :=
  (getlist d k).filterMap conv

/-- `items(multi=True)`, datastructures.py:472-486. -/
def itemsMulti (d : MDict K V) : List (K × V) := d.flatMap fun p => p.2.map fun v => (p.1, v)

/-- `items()`.  datastructures.py:472-486. -/
def items (d : MDict K V) : Except PyErr (List (K × V)) :=
  d.mapM fun p => (idx0 p.2).map fun v => (p.1, v)

/-- `lists()`, datastructures.py:488-493. -/
def lists (d : MDict K V) : List (K × List V) := d

/-- `values()`, datastructures.py:501-504. -/
def values (d : MDict K V) : Except PyErr (List V) := d.mapM fun p => idx0 p.2

/-- `listvalues()`, datastructures.py:506-515. -/
def listvalues (d : MDict K V) : List (List V) := d.map (·.2)

/-- `len(d)`.  Inherited from `dict`, datastructures.py:277. -/
def len (d : MDict K V) : Nat := d.length

/-- Calls that may change a `MultiDict`.  Models datastructures.py:277-599. -/
inductive Op (K V : Type) where
  | setitem (k : K) (v : V)
  | add (k : K) (v : V)
  | setlist (k : K) (vs : List V)
  | setdefault (k : K) (v : V)
  | setlistdefault (k : K) (vs : List V)
  /-- update from an independent source of pairs (not from the dictionary itself) -/
  | update (ps : List (K × V))
  | pop (k : K)
  | popDefault (k : K) (v : V)
  | popitem
  | poplist (k : K)
  | popitemlist
  | delitem (k : K)
  | clear
  /-- writing through the internal list returned by `setlistdefault` or `listvalues` -/
  | alias (k : K) (vs : List V)

/-- What a call returns.  Models datastructures.py:277-599. -/
inductive Ret (K V : Type) where
  | unit
  | val (v : V)
  | vals (vs : List V)
  | item (k : K) (v : V)
  | itemlist (k : K) (vs : List V)
  deriving DecidableEq

/-- One call: new contents and result.  datastructures.py:362-380 (`__setitem__`, `add`),
410-428 (`setlist`), 430-444 (`setdefault`), 446-470 (`setlistdefault`), 541-544
(`update`), 546-588 (`pop`, `popitem`, `poplist`, `popitemlist`); `__delitem__` and `clear`
are inherited from `dict`. -/
def step (d : MDict K V) : Op K V → MDict K V × Except PyErr (Ret K V)
  | .setitem k v => (Dict.set d k [v], .ok .unit)
  | .add k v => (add d k v, .ok .unit)
  | .setlist k vs => (Dict.set d k vs, .ok .unit)
  | .setdefault k v =>
    if Dict.has d k then (d, (getitem d k).map .val) else (Dict.set d k [v], .ok (.val v))
  | .setlistdefault k vs =>
    match Dict.get d k with
    | some l => (d, .ok (.vals l))
    | none => (Dict.set d k vs, .ok (.vals vs))
  | .update ps => (ps.foldl (fun d p => add d p.1 p.2) d, .ok .unit)
  | .pop k =>
    match Dict.get d k with
    | some l => (Dict.del d k, (idx0 l).map .val)
    | none => (d, .error .keyError)
  | .popDefault k v =>
    match Dict.get d k with
    | some l => (Dict.del d k, (idx0 l).map .val)
    | none => (d, .ok (.val v))
  | .popitem =>
    match d.getLast? with
    | some (k, l) => (d.dropLast, (idx0 l).map (.item k))
    | none => (d, .error .keyError)
  | .poplist k =>
    match Dict.get d k with
    | some l => (Dict.del d k, .ok (.vals l))
    | none => (d, .ok (.vals []))
  | .popitemlist =>
    match d.getLast? with
    | some (k, l) => (d.dropLast, .ok (.itemlist k l))
    | none => (d, .error .keyError)
  | .delitem k =>
    if Dict.has d k then (Dict.del d k, .ok .unit) else (d, .error .keyError)
  | .clear => ([], .ok .unit)
  | .alias k vs => if Dict.has d k then (Dict.set d k vs, .ok .unit) else (d, .ok .unit)

/-- The contents after a history of calls.  Models datastructures.py:277-599. -/
def runOps (d : MDict K V) (ops : List (Op K V)) : MDict K V := ops.foldl (fun d o => (step d o).1) d

end Verif.MD
