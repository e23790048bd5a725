import Verif.Model.Combined
/-!
Model of `==` and `!=` between dictionaries of the classes of
`/repo/verktyg/datastructures.py`, as Python dispatches them, and of `update` with the
dictionary itself.
-/
namespace Verif.MultiCmp
open Verif
open Verif.MD (MDict)
open Verif.OMD (ODict)
variable {K V : Type} [DecidableEq K] [DecidableEq V]

/-- Objects that can be compared.  Models datastructures.py:277-977.  A plain dictionary has
single values and lists; `imm` tells an `ImmutableMultiDict` from a `MultiDict`.  An
`ImmutableOrderedMultiDict` compares as an `OrderedMultiDict`.  Objects that are no
dictionaries are numbered. -/
inductive Obj (K V : Type) where
  | dict (d : List (K × (V ⊕ List V)))
  | multi (imm : Bool) (d : MDict K V)
  | ordered (o : ODict K V)
  | combined (c : CMD.CDict K V)
  | other (n : Nat)

/-- A value in the underlying `dict`.  Used for datastructures.py:277-341, 741-742. -/
inductive Cell (V : Type) where
  | val (v : V)
  | list (l : List V)
  | buckets (l : List Nat)

/-- Comparison of two such values: a list of buckets is equal to a list of values only if
both are empty.  Simplification: values are no lists.  Used for datastructures.py:277. -/
def cellEq : Cell V → Cell V → Bool
  | .val a, .val b => a == b
  | .list a, .list b => a == b
  | .buckets a, .buckets b => a == b
  | .list a, .buckets b => a.isEmpty && b.isEmpty
  | .buckets a, .list b => a.isEmpty && b.isEmpty
  | _, _ => false

/-- The underlying `dict` of an object; that of a `CombinedMultiDict` is empty.  Models
datastructures.py:324-341, 649-653, 835-836. -/
def storage : Obj K V → List (K × Cell V)
  | .dict d => d.map fun p => (p.1, match p.2 with | .inl v => .val v | .inr l => .list l)
  | .multi _ d => d.map fun p => (p.1, .list p.2)
  | .ordered o => o.dict.map fun p => (p.1, .buckets p.2)
  | .combined _ => []
  | .other _ => []

/-- Whether the value of a key is the given one.  Used for datastructures.py:277. -/
def holds (b : List (K × Cell V)) (p : K × Cell V) : Bool :=
  match Dict.get b p.1 with
  | some c => cellEq p.2 c
  | none => false

/-- `dict.__eq__` for two dictionaries.  Inherited at datastructures.py:277. -/
def dictEq (a b : List (K × Cell V)) : Bool := a.length == b.length && a.all (holds b)

/-- `OrderedMultiDict.__eq__`, datastructures.py:655-678; `none` is `NotImplemented`. -/
def orderedEq (o : ODict K V) : Obj K V → Option Bool
  | .ordered o' => some (Imm.eqOrdered (OMD.itemsMulti o) (OMD.itemsMulti o'))
  | .multi _ d => some (OMD.len o == MD.len d && (OMD.lists o).all fun p => MD.getlist d p.1 == p.2)
  | .combined c => some (OMD.len o == CMD.len c && (OMD.lists o).all fun p => CMD.getlist c p.1 == p.2)
  | .dict _ => none
  | .other _ => none

/-- `a.__eq__(b)`: datastructures.py:655-678 for ordered dictionaries, that of `dict` for
the other ones. -/
def eqMethod : Obj K V → Obj K V → Option Bool
  | .ordered o, b => orderedEq o b
  | .other _, _ => none
  | _, .other _ => none
  | a, b => some (dictEq (storage a) (storage b))

/-- `a.__ne__(b)`: datastructures.py:680-681 for ordered dictionaries, where `not
NotImplemented` is false, and the opposite of `dict.__eq__` for the other ones. -/
def neMethod : Obj K V → Obj K V → Option Bool
  | .ordered o, b => match orderedEq o b with
    | some r => some (!r)
    | none => some false
  | .other _, _ => none
  | _, .other _ => none
  | a, b => some (!dictEq (storage a) (storage b))

/-- Python asks the right operand first if its class is derived from that of the left one
and brings its own method: here an ordered dictionary to the right of a `dict` or a
`MultiDict`.  Used for datastructures.py:633. -/
def rightFirst : Obj K V → Obj K V → Bool
  | .dict _, .ordered _ => true
  | .multi false _, .ordered _ => true
  | _, _ => false

/-- `a is b` for objects that are no dictionaries.  Used for datastructures.py:655-657. -/
def same : Obj K V → Obj K V → Bool
  | .other n, .other m => n == m
  | _, _ => false

/-- `a == b`.  Models datastructures.py:277-977. -/
def eq (a b : Obj K V) : Bool :=
  if rightFirst a b then ((eqMethod b a).or (eqMethod a b)).getD (same a b)
  else ((eqMethod a b).or (eqMethod b a)).getD (same a b)

/-- `a != b`.  Models datastructures.py:277-977. -/
def ne (a b : Obj K V) : Bool :=
  if rightFirst a b then ((neMethod b a).or (neMethod a b)).getD (!same a b)
  else ((neMethod a b).or (neMethod b a)).getD (!same a b)

/-- `d.update(d)` for a `MultiDict`, datastructures.py:541-544 with 27-34 and 482-484: the
iterator stands at value `j` of key `i` of the dictionary that is being changed.  `none`
when the loop has not ended after `fuel` steps. -/
def updateSelf : (fuel : Nat) → MDict K V → (i j : Nat) → Option (MDict K V)
  | 0, _, _, _ => none
  | fuel + 1, d, i, j => match d[i]? with
    | none => some d
    | some (k, vs) => match vs[j]? with
      | none => updateSelf fuel d (i + 1) 0
      | some v => updateSelf fuel (MD.add d k v) i (j + 1)

/-- `o.update(o)` for an `OrderedMultiDict`, datastructures.py:769-771 with 27-34 and
714-719: the pointer follows the buckets that are being appended to. -/
def updateSelfOrdered : (fuel : Nat) → ODict K V → Option Nat → Option (ODict K V)
  | 0, _, _ => none
  | _ + 1, o, none => some o
  | fuel + 1, o, some i => match o.heap[i]? with
    | none => some o
    | some b => updateSelfOrdered fuel (OMD.add o b.key b.value)
        (((OMD.add o b.key b.value).heap[i]?).bind (·.next))

end Verif.MultiCmp
