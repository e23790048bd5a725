import Verif.Py
import Verif.Dict
import Verif.Model.MultiDict
/-!
Model of `OrderedMultiDict` (`/repo/verktyg/datastructures.py:602-806`) with its doubly
linked list of buckets: a heap of buckets, bucket addresses, and a dict from keys to lists
of bucket addresses.
-/
namespace Verif.OMD
open Verif
open Verif.MD (Op Ret)
variable {K V : Type} [DecidableEq K]

/-- `_omd_bucket`, datastructures.py:602-609; `prev` and `next` are addresses. -/
structure Bucket (K V : Type) where
  prev : Option Nat
  key : K
  value : V
  next : Option Nat

/-- An `OrderedMultiDict`: all buckets ever created, `_first_bucket`, `_last_bucket` and the
underlying dict.  Models datastructures.py:602-806. -/
structure ODict (K V : Type) where
  heap : List (Bucket K V)
  first : Option Nat
  last : Option Nat
  dict : List (K × List Nat)

/-- `OrderedMultiDict()`, datastructures.py:649-653. -/
def empty : ODict K V := ⟨[], none, none, []⟩

/-- `_omd_bucket.__init__`, datastructures.py:610-620, including the creation of the
object: the new address is the next free one. -/
def newBucket (o : ODict K V) (k : K) (v : V) : ODict K V × Nat :=
  let self := o.heap.length
  let heap := o.heap ++ [⟨o.last, k, v, none⟩]
  let heap := match o.last with
    | some l => heap.modify l fun b => { b with next := some self }
    | none => heap
  ({ o with
      heap := heap
      first := if o.first.isNone then some self else o.first
      last := some self }, self)

/-- `_omd_bucket.unlink`, datastructures.py:622-630. -/
def unlink (o : ODict K V) (self : Nat) : ODict K V :=
  match o.heap[self]? with
  | none => o
  | some b =>
    let heap := match b.prev with
      | some p => o.heap.modify p fun x => { x with next := b.next }
      | none => o.heap
    let heap := match b.next with
      | some n => heap.modify n fun x => { x with prev := b.prev }
      | none => heap
    { o with
      heap := heap
      first := if o.first = some self then b.next else o.first
      last := if o.last = some self then b.prev else o.last }

/-- `for bucket in buckets: bucket.unlink(self)`.  Used for datastructures.py:773-777. -/
def unlinkAll (o : ODict K V) (bs : List Nat) : ODict K V := bs.foldl unlink o

/-- `add`, datastructures.py:741-742. -/
def add (o : ODict K V) (k : K) (v : V) : ODict K V :=
  let (o', i) := newBucket o k v
  { o' with dict := Dict.set o'.dict k ((Dict.get o'.dict k).getD [] ++ [i]) }

/-- `[x.value for x in buckets]`.  Used for datastructures.py:773-777. -/
def valuesOf (o : ODict K V) (bs : List Nat) : List V := bs.filterMap fun i => (o.heap[i]?).map (·.value)

/-- `poplist`, datastructures.py:773-777. -/
def poplist (o : ODict K V) (k : K) : ODict K V × List V :=
  match Dict.get o.dict k with
  | some bs => (unlinkAll { o with dict := Dict.del o.dict k } bs, valuesOf o bs)
  | none => (o, [])

/-- `pop`, datastructures.py:779-788. -/
def pop (o : ODict K V) (k : K) : Option (ODict K V × Except PyErr V) :=
  match Dict.get o.dict k with
  | some bs => some (unlinkAll { o with dict := Dict.del o.dict k } bs, MD.idx0 (valuesOf o bs))
  | none => none

/-- The addresses met when following `next` from `ptr`.  Used for datastructures.py:714-726. -/
def walk (heap : List (Bucket K V)) : Nat → Option Nat → List Nat
  | 0, _ => []
  | _, none => []
  | n + 1, some i =>
    match heap[i]? with
    | some b => i :: walk heap n b.next
    | none => []

/-- `items(multi=True)`, datastructures.py:714-726. -/
def itemsMulti (o : ODict K V) : List (K × V) :=
  (walk o.heap o.heap.length o.first).filterMap fun i => (o.heap[i]?).map fun b => (b.key, b.value)

/-- The loop over `returned_keys`, datastructures.py:719-726. -/
def dedup : List K → List (K × V) → List (K × V)
  | _, [] => []
  | seen, p :: ps => if p.1 ∈ seen then dedup seen ps else p :: dedup (p.1 :: seen) ps

/-- `items()`.  datastructures.py:714-726. -/
def items (o : ODict K V) : List (K × V) := dedup [] (itemsMulti o)
/-- `keys()`, datastructures.py:706-707. -/
def keys (o : ODict K V) : List K := (items o).map (·.1)
/-- `values()`, datastructures.py:711-712. -/
def values (o : ODict K V) : List V := (items o).map (·.2)
/-- `getlist(key)`, datastructures.py:744-757. -/
def getlist (o : ODict K V) (k : K) : List V := valuesOf o ((Dict.get o.dict k).getD [])
/-- `lists()`, datastructures.py:728-735. -/
def lists (o : ODict K V) : List (K × List V) := (items o).map fun p => (p.1, getlist o p.1)
/-- `__getitem__`, datastructures.py:694-697. -/
def getitem (o : ODict K V) (k : K) : Except PyErr V :=
  match Dict.get o.dict k with
  | some bs => MD.idx0 (valuesOf o bs)
  | none => .error .keyError
/-- `k in d`, `len(d)`: those of the underlying dict.  Inherited, datastructures.py:633. -/
def has (o : ODict K V) (k : K) : Bool := Dict.has o.dict k
/-- `len(d)`, inherited, datastructures.py:633. -/
def len (o : ODict K V) : Nat := o.dict.length

/-- One call, datastructures.py:699-704 (`__setitem__`, `__delitem__`).  `setlist` 759-762, `setlistdefault` 764-767, `update` 769-771, `popitem`
790-797, `popitemlist` 799-806, `__setitem__` 699-701, `__delitem__` 703-704; `setdefault`
is inherited from `MultiDict` (430-444) and `clear` from `dict`, which does not touch the
buckets. -/
def step (o : ODict K V) : Op K V → ODict K V × Except PyErr (Ret K V)
  | .setitem k v => (add (poplist o k).1 k v, .ok .unit)
  | .add k v => (add o k v, .ok .unit)
  | .setlist k vs => (vs.foldl (fun o v => add o k v) (poplist o k).1, .ok .unit)
  | .setdefault k v =>
    if has o k then (o, (getitem o k).map .val)
    else (add (poplist o k).1 k v, .ok (.val v))
  | .setlistdefault _ _ => (o, .error .typeError)
  | .update ps => (ps.foldl (fun o p => add o p.1 p.2) o, .ok .unit)
  | .pop k =>
    match pop o k with
    | some (o', r) => (o', r.map .val)
    | none => (o, .error .keyError)
  | .popDefault k v =>
    match pop o k with
    | some (o', r) => (o', r.map .val)
    | none => (o, .ok (.val v))
  | .popitem =>
    match o.dict.getLast? with
    | some (k, bs) =>
      (unlinkAll { o with dict := o.dict.dropLast } bs, (MD.idx0 (valuesOf o bs)).map (.item k))
    | none => (o, .error .keyError)
  | .poplist k => ((poplist o k).1, .ok (.vals (poplist o k).2))
  | .popitemlist =>
    match o.dict.getLast? with
    | some (k, bs) =>
      (unlinkAll { o with dict := o.dict.dropLast } bs, .ok (.itemlist k (valuesOf o bs)))
    | none => (o, .error .keyError)
  | .delitem k =>
    match pop o k with
    | some (o', r) => (o', r.map fun _ => .unit)
    | none => (o, .error .keyError)
  | .clear => ({ o with dict := [] }, .ok .unit)
  -- no method of an ordered multi dict returns an internal list
  | .alias _ _ => (o, .ok .unit)

/-- Models datastructures.py:602-806. -/
def runOps (o : ODict K V) (ops : List (Op K V)) : ODict K V := ops.foldl (fun o p => (step o p).1) o

end Verif.OMD
