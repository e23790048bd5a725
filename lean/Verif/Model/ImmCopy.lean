import Verif.Model.Combined
import Verif.Model.Copies
import Verif.Model.Auth
import Verif.Model.CacheControl
/-!
Copying, pickling and `fromkeys` of the immutable classes (`/repo/verktyg/datastructures.py:46-185, 267-281, 826-843,
908-910, 944-1000`), and of the classes of `/repo/verktyg/http` that inherit them.  Pickling is
`cls(*args)` for what `__reduce_ex__` returns; values are taken to be pickled faithfully.
-/
namespace Verif.ImmCopy
open Verif Verif.MD
variable {K V : Type} [DecidableEq K]

/-- `dict(pairs)` for pairs or another `dict`.  Used for datastructures.py:120-126, 959. -/
def dictOf {A : Type} (ps : List (K × A)) : List (K × A) := ps.foldl (fun d p => Dict.set d p.1 p.2) []

/-- `ImmutableDictMixin.__reduce_ex__`, datastructures.py:125-126: the argument for the class. -/
def reduceDict {A : Type} (d : List (K × A)) : List (K × A) := dictOf d

/-- `pickle.loads(pickle.dumps(d))` and `copy.deepcopy(d)` for an `ImmutableDict` or an
`ImmutableTypeConversionDict`, datastructures.py:125-126. -/
def pickleDict {A : Type} (d : List (K × A)) : List (K × A) := dictOf (reduceDict d)

/-- `d.copy()`: a mutable copy, datastructures.py:272-277, 954-959. -/
def copyDict {A : Type} (d : List (K × A)) : List (K × A) := dictOf d

/-- `ImmutableListMixin.__reduce_ex__` and the list made of it, datastructures.py:60-61. -/
def pickleList {A : Type} (l : List A) : List A := l.map fun x => x

/-- `ImmutableMultiDictMixin.__reduce_ex__`, datastructures.py:165-166. -/
def reduceMulti (d : MDict K V) : List (K × V) := MD.itemsMulti d

/-- `pickle.loads(pickle.dumps(d))` for an `ImmutableMultiDict`, datastructures.py:165-166 with 337-341. -/
def pickleMulti (d : MDict K V) : MDict K V := MD.ofPairs (reduceMulti d)

/-- `d.copy()` for an `ImmutableMultiDict`, datastructures.py:969-974 with 325-326. -/
def copyMulti (d : MDict K V) : MDict K V := dictOf (MD.lists d)

/-- `copy.deepcopy(d)` for an `ImmutableMultiDict`, inherited: datastructures.py:521-523, 593-594 with 327-336. -/
def deepcopyMulti (d : MDict K V) : MDict K V := MD.ofDict ((MD.lists d).map fun p => (p.1, .inr p.2))

/-- `pickle.loads(pickle.dumps(o))` for an `ImmutableOrderedMultiDict`, datastructures.py:165-166 with 649-653. -/
def pickleOrdered (o : OMD.ODict K V) : OMD.ODict K V := Heap.orderedOf (OMD.itemsMulti o)

/-- `CombinedMultiDict.__reduce_ex__`, datastructures.py:832-833, with the constructor, 835-836: the wrapped
dictionaries are pickled as `MultiDict`s are (C120). -/
def pickleCombined (c : CMD.CDict K V) : Except PyErr (CMD.CDict K V) :=
  match c.mapM MD.items with
  | .ok _ => .ok c
  | .error e => .error e

/-- `c.copy()`, datastructures.py:908-910: the list of dictionaries is copied, the dictionaries are shared. -/
def copyCombined (c : CMD.CDict K V) : CMD.CDict K V := c.map fun d => d

/-- `ImmutableDict.fromkeys(keys, value)`, datastructures.py:119-123. -/
def fromkeysDict {A : Type} (keys : List K) (a : A) : List (K × A) := dictOf (keys.map fun k => (k, a))

/-- `ImmutableMultiDict.fromkeys(keys, value)`, datastructures.py:119-123 with 337-341. -/
def fromkeysMulti (keys : List K) (v : V) : MDict K V := MD.ofPairs (keys.map fun k => (k, v))

/-- `ImmutableOrderedMultiDict.fromkeys(keys, value)`, datastructures.py:119-123 with 649-653. -/
def fromkeysOrdered (keys : List K) (v : V) : OMD.ODict K V := Heap.orderedOf (keys.map fun k => (k, v))

/-- `MultiDict.fromkeys(keys, value)`: that of `dict`, which assigns the keys one by one,
datastructures.py:362-371. -/
def fromkeysMutable (keys : List K) (v : V) : MDict K V := MD.runOps [] (keys.map fun k => .setitem k v)

/-- The attribute `type` of an `Authorization` made by unpickling: a text or a `dict`.  Used for auth.py:29-31. -/
structure Restored where
  type : Str ⊕ List (Str × Option Str)
  data : List (Str × Option Str)
deriving DecidableEq

/-- `Authorization(auth_type, data)`, auth.py:29-31, for any first argument. -/
def newAuthorization (authType : Str ⊕ List (Str × Option Str)) (data : List (Str × Option Str)) : Restored :=
  ⟨authType, data⟩

/-- `pickle.loads(pickle.dumps(a))`, `copy.copy(a)` and `copy.deepcopy(a)` for an `Authorization` (auth.py:19-31):
it inherits `ImmutableDictMixin.__reduce_ex__` (datastructures.py:125-126), which passes the dictionary as the
only argument. -/
def pickleAuthorization (a : Auth.Authorization) : Restored := newAuthorization (.inr (reduceDict a.data)) []

/-- `a.username` and the like: `x.get(name)`, auth.py:33-63. -/
def Restored.attr (r : Restored) (name : Str) : Option Str := (Dict.get r.data name).join

/-- A `RequestCacheControl`, cache_control.py:307-310: its directives and `provided`. -/
structure RequestCC where
  dict : List (Str × CacheControl.Val)
  provided : Bool

/-- `RequestCacheControl(values)`, cache_control.py:307-310; `none` for `None`. -/
def newRequestCC (values : Option (List (Str × CacheControl.Val))) : RequestCC :=
  ⟨dictOf (values.getD []), values.isSome⟩

/-- `pickle.loads(pickle.dumps(c))` and copies of a `RequestCacheControl`, cache_control.py:362 with
datastructures.py:125-126. -/
def pickleRequestCC (c : RequestCC) : RequestCC := newRequestCC (some (reduceDict c.dict))

end Verif.ImmCopy
