import Verif.Py
import Verif.Dict
import Verif.Model.MultiDict
import Verif.Model.OrderedMultiDict
/-!
Model of `CombinedMultiDict`, the immutable containers and `CallbackDict`
(`/repo/verktyg/datastructures.py`).
-/
namespace Verif.CMD
open Verif Verif.MD
variable {K V : Type} [DecidableEq K]

/-- `CombinedMultiDict.dicts`.  Simplification: the wrapped dictionaries are `MultiDict`s.
Models datastructures.py:808-842. -/
abbrev CDict (K V : Type) := List (MDict K V)

/-- `__getitem__`, datastructures.py:844-848. -/
def getitem : CDict K V → K → Except PyErr V
  | [], _ => .error .keyError
  | d :: ds, k => if Dict.has d k then MD.getitem d k else getitem ds k

/-- `get(key, default, type)`, datastructures.py:850-859; `conv` returns `none` for a
`ValueError`. -/
def get {W : Type} : CDict K V → K → W → (V → Option W) → Except PyErr W
  | [], _, dflt, _ => .ok dflt
  | d :: ds, k, dflt, conv =>
    if Dict.has d k then
      match MD.getitem d k with
      | .ok v => match conv v with
        | some w => .ok w
        | none => get ds k dflt conv
      | .error e => .error e
    else get ds k dflt conv

/-- `getlist(key)`, datastructures.py:861-865. -/
def getlist (c : CDict K V) (k : K) : List V := c.flatMap fun d => MD.getlist d k

/-- `_keys_impl()`, datastructures.py:867-877; the order of a `set` is not specified, here
it is the order of insertion. -/
def keysImpl (c : CDict K V) : List K :=
  c.foldl (fun ks d => (Dict.keys d).foldl (fun ks k => if k ∈ ks then ks else ks ++ [k]) ks) []

/-- `items(multi=True)`, datastructures.py:884-892. -/
def itemsMulti (c : CDict K V) : List (K × V) := c.flatMap MD.itemsMulti

/-- `items()`: the first pair of each key over the dicts in order.
datastructures.py:884-892. -/
def items (c : CDict K V) : Except PyErr (List (K × V)) := do
  let l ← c.mapM MD.items
  pure (OMD.dedup [] l.flatten)

/-- `lists()`, datastructures.py:898-903. -/
def lists (c : CDict K V) : List (K × List V) :=
  c.foldl (fun rv d => (MD.lists d).foldl
    (fun rv p => Dict.set rv p.1 ((Dict.get rv p.1).getD [] ++ p.2)) rv) []

/-- `to_dict(flat=False)`, datastructures.py:912-927: `update` replaces whole lists. -/
def toDictLists (c : CDict K V) : List (K × List V) :=
  c.reverse.foldl (fun rv d => (MD.lists d).foldl (fun rv p => Dict.set rv p.1 p.2) rv) []

/-- `__len__`, datastructures.py:929-930. -/
def len (c : CDict K V) : Nat := (keysImpl c).length

/-- `__contains__`, datastructures.py:932-936. -/
def has (c : CDict K V) (k : K) : Bool := c.any fun d => Dict.has d k

/-- A mutating call on a `CombinedMultiDict`: all of them come from
`ImmutableMultiDictMixin` (datastructures.py:137-184) and raise.  Writing through the
lists returned by `listvalues` (`alias`) touches fresh lists only. -/
def step (c : CDict K V) : Op K V → CDict K V × Except PyErr (Ret K V)
  | .alias _ _ => (c, .ok .unit)
  | _ => (c, .error .typeError)

end Verif.CMD

namespace Verif.Imm
open Verif Verif.MD
variable {K V α : Type} [DecidableEq K]

/-- The mutating methods of `list`.  Used for datastructures.py:46-96. -/
inductive ListOp (α : Type) where
  | delitem (i : Nat) | iadd (l : List α) | imul (n : Nat) | setitem (i : Nat) (a : α)
  | append (a : α) | remove (a : α) | extend (l : List α) | insert (i : Nat) (a : α)
  | pop (i : Nat) | reverse | sort | clear

/-- A call on an `ImmutableList`, datastructures.py:46-96.  The mixin overrides every
mutating method except `clear`, which is that of `list`. -/
def listStep (l : List α) : ListOp α → List α × Except PyErr Unit
  | .clear => ([], .ok ())
  | _ => (l, .error .typeError)

/-- The mutating methods of `dict`.  Used for datastructures.py:137-156. -/
inductive DictOp (K V : Type) where
  | setitem (k : K) (v : V) | delitem (k : K) | setdefault (k : K) (v : V)
  | update (ps : List (K × V)) | pop (k : K) | popDefault (k : K) (v : V) | popitem | clear

/-- A call on an `ImmutableDict` or `ImmutableTypeConversionDict`, datastructures.py:137-156. -/
def dictStep (d : List (K × V)) : DictOp K V → List (K × V) × Except PyErr Unit
  | .setitem _ _ => (d, .error .typeError)
  | .delitem _ => (d, .error .typeError)
  | .setdefault _ _ => (d, .error .typeError)
  | .update _ => (d, .error .typeError)
  | .pop _ => (d, .error .typeError)
  | .popDefault _ _ => (d, .error .typeError)
  | .popitem => (d, .error .typeError)
  | .clear => (d, .error .typeError)

/-- A call on an `ImmutableMultiDict`, datastructures.py:137-184.  `listvalues` is inherited
from `MultiDict` (506-515) and hands out the stored lists, so writing to them (`alias`)
changes the dictionary. -/
def multiStep (d : MDict K V) : Op K V → MDict K V × Except PyErr (Ret K V)
  | .alias k vs => MD.step d (.alias k vs)
  | _ => (d, .error .typeError)

/-- A call on an `ImmutableOrderedMultiDict`: the mixin comes first, and `listvalues`
(datastructures.py:737-739) builds fresh lists. -/
def orderedStep (o : OMD.ODict K V) : Op K V → OMD.ODict K V × Except PyErr (Ret K V)
  | .alias _ _ => (o, .ok .unit)
  | _ => (o, .error .typeError)

/-- The mutating methods of `Headers`.  Used for wsgi.py:279-321. -/
inductive HeadersOp where
  | delitem | setitem | set | add | addHeader | remove | extend | insert | pop | popitem
  | setdefault | clear

/-- A call on `EnvironHeaders` (wsgi.py:279-321): `ImmutableHeadersMixin`
(http/basic.py:499-531) overrides every mutating method except `clear`, which is that of
`Headers` (basic.py:393-395) and fails because the object has no list of its own.  `E` is
the environ it is a view of. -/
def environStep {E : Type} (environ : E) : HeadersOp → E × Except PyErr Unit
  | .clear => (environ, .error .attributeError)
  | _ => (environ, .error .typeError)

/-- `ImmutableMultiDict.__eq__` (that of `dict`): same keys, equal lists.
Inherited at datastructures.py:277. -/
def eqMulti [DecidableEq V] (a b : MDict K V) : Bool :=
  a.length == b.length && a.all fun p => Dict.get b p.1 == some p.2

/-- What `hash` of an `ImmutableMultiDict` is computed from, datastructures.py:128-135,
168-169: the set of its `items(multi=True)`.  The elements are pairs here and numbered
pairs below. -/
def hashSetMulti (a : MDict K V) : (K × V) ⊕ (Nat × (K × V)) → Prop
  | .inl p => p ∈ MD.itemsMulti a
  | .inr _ => False

/-- `OrderedMultiDict.__eq__` between two ordered dictionaries, datastructures.py:655-671,
on their `items(multi=True)`. -/
def eqOrdered [DecidableEq V] : List (K × V) → List (K × V) → Bool
  | [], [] => true
  | a :: as, b :: bs => if a.1 ≠ b.1 ∨ a.2 ≠ b.2 then false else eqOrdered as bs
  | _, _ => false

/-- `OrderedMultiDict.__eq__` against a plain `MultiDict`, datastructures.py:672-678; the
ordered side is given by its `lists()` . -/
def eqMixed [DecidableEq V] (o : List (K × List V)) (b : MDict K V) : Bool :=
  o.length == b.length && o.all fun p => MD.getlist b p.1 == p.2

/-- What the hash of an `ImmutableOrderedMultiDict` is computed from,
datastructures.py:984-985: the set of `enumerate(items(multi=True))`. -/
def hashSetOrdered (l : List (K × V)) : (K × V) ⊕ (Nat × (K × V)) → Prop
  | .inl _ => False
  | .inr p => l[p.1]? = some p.2

end Verif.Imm

namespace Verif.Callback
open Verif
variable {K V : Type} [DecidableEq K]

/-- Calls on a `CallbackDict`.  `updateFail` is `update` with an iterable that raises (or
yields something that is not a pair) after the given pairs.  Models datastructures.py:187-226 and 985-1011. -/
inductive Op (K V : Type) where
  | setitem (k : K) (v : V) | delitem (k : K) | clear | popitem
  | update (ps : List (K × V)) | updateFail (ps : List (K × V))
  | setdefault (k : K) (v : V) | pop (k : K) | popDefault (k : K) (v : V)

/-- State: the contents, and the contents as seen at each callback so far.
Models datastructures.py:187-226 and 985-1011. -/
structure State (K V : Type) where
  dict : List (K × V)
  seen : List (List (K × V))

/-- `self.on_update(self)`.  Used for datastructures.py:187-226. -/
def notify (s : State K V) : State K V := { s with seen := s.seen ++ [s.dict] }

/-- `UpdateDictMixin`, datastructures.py:187-226, over `dict`. -/
def step (s : State K V) : Op K V → State K V × Except PyErr (Option V)
  | .setitem k v => (notify { s with dict := Dict.set s.dict k v }, .ok none)
  | .delitem k =>
    if Dict.has s.dict k then (notify { s with dict := Dict.del s.dict k }, .ok none)
    else (s, .error .keyError)
  | .clear => (notify { s with dict := [] }, .ok none)
  | .popitem =>
    match s.dict.getLast? with
    | some p => (notify { s with dict := s.dict.dropLast }, .ok (some p.2))
    | none => (s, .error .keyError)
  | .update ps => (notify { s with dict := ps.foldl (fun d p => Dict.set d p.1 p.2) s.dict }, .ok none)
  | .updateFail ps => ({ s with dict := ps.foldl (fun d p => Dict.set d p.1 p.2) s.dict }, .error .typeError)
  | .setdefault k v =>
    match Dict.get s.dict k with
    | some w => (s, .ok (some w))
    | none => (notify { s with dict := Dict.set s.dict k v }, .ok (some v))
  | .pop k =>
    match Dict.get s.dict k with
    | some w => (notify { s with dict := Dict.del s.dict k }, .ok (some w))
    | none => (s, .error .keyError)
  | .popDefault k v =>
    match Dict.get s.dict k with
    | some w => (notify { s with dict := Dict.del s.dict k }, .ok (some w))
    | none => (s, .ok (some v))

/-- Models datastructures.py:187-226 and 985-1011. -/
def runOps (s : State K V) (ops : List (Op K V)) : State K V := ops.foldl (fun s o => (step s o).1) s

end Verif.Callback
