import Verif.Model.MultiDict
import Verif.Model.Combined
/-!
`MultiDict` objects with the list objects they are made of (`/repo/verktyg/datastructures.py:277-599`): which calls
copy lists, which keep them and which hand them out.  `Verif.MD` models the same calls on values.
-/
namespace Verif.Heap
open Verif Verif.MD
variable {K V : Type} [DecidableEq K]

/-- The memory: the list objects and the dictionaries, each referring to lists by their number.
Models the lists stored by datastructures.py:322-340. -/
structure Heap (K V : Type) where
  lists : List (List V)
  dicts : List (List (K × Nat))

/-- The contents of a list.  Used for datastructures.py:400-408. -/
def Heap.list (h : Heap K V) (a : Nat) : List V := (h.lists[a]?).getD []

/-- What `dict` stores: keys and lists.  Used for datastructures.py:322-340. -/
def Heap.dict (h : Heap K V) (d : Nat) : List (K × Nat) := (h.dicts[d]?).getD []

/-- A new list object, `list(…)` or `[…]`.  Used for datastructures.py:371, 380, 428. -/
def Heap.alloc (h : Heap K V) (vs : List V) : Heap K V := { h with lists := h.lists ++ [vs] }

/-- The contents of a list object are changed.  Used for datastructures.py:380. -/
def Heap.write (h : Heap K V) (a : Nat) (vs : List V) : Heap K V := { h with lists := h.lists.set a vs }

/-- The items of a dictionary are changed.  Used for datastructures.py:371, 428, 469. -/
def Heap.put (h : Heap K V) (d : Nat) (items : List (K × Nat)) : Heap K V := { h with dicts := h.dicts.set d items }

/-- What a dictionary shows: each key with its values, `lists()`, datastructures.py:488-493. -/
def Heap.view (h : Heap K V) (d : Nat) : MDict K V := (h.dict d).map fun p => (p.1, h.list p.2)

/-- A new dictionary with new lists, `dict.__init__(self, ((k, l[:]) for k, l in …))`, datastructures.py:322-340. -/
def Heap.newDict (h : Heap K V) (items : MDict K V) : Heap K V :=
  ⟨h.lists ++ items.map (·.2), h.dicts ++ [(items.zipIdx h.lists.length).map fun p => (p.1.1, p.2)]⟩

/-- `add(key, value)`: appends to the list there is, datastructures.py:373-381. -/
def Heap.add (h : Heap K V) (d : Nat) (k : K) (v : V) : Heap K V :=
  match Dict.get (h.dict d) k with
  | some a => h.write a (h.list a ++ [v])
  | none => (h.alloc [v]).put d (Dict.set (h.dict d) k h.lists.length)

/-- A list stored under a key, in place of the one there was: `dict.__setitem__(self, key, list(…))`,
datastructures.py:371, 428, 467. -/
def Heap.store (h : Heap K V) (d : Nat) (k : K) (vs : List V) : Heap K V :=
  (h.alloc vs).put d (Dict.set (h.dict d) k h.lists.length)

/-- A call on a dictionary: the memory, the list objects it returns and its result as a value.
datastructures.py:362-380, 410-470, 541-588; the calls are those of `MD.step`. -/
def call (h : Heap K V) (d : Nat) : Op K V → Heap K V × List Nat × Except PyErr (Ret K V)
  | .setitem k v => (h.store d k [v], [], .ok .unit)
  | .add k v => (h.add d k v, [], .ok .unit)
  | .setlist k vs => (h.store d k vs, [], .ok .unit)
  | .setdefault k v =>
    match Dict.get (h.dict d) k with
    | some a => (h, [], (idx0 (h.list a)).map .val)
    | none => (h.store d k [v], [], .ok (.val v))
  | .setlistdefault k vs =>
    match Dict.get (h.dict d) k with
    | some a => (h, [a], .ok (.vals (h.list a)))
    | none => (h.store d k vs, [h.lists.length], .ok (.vals vs))
  | .update ps => (ps.foldl (fun h p => h.add d p.1 p.2) h, [], .ok .unit)
  | .pop k =>
    match Dict.get (h.dict d) k with
    | some a => (h.put d (Dict.del (h.dict d) k), [], (idx0 (h.list a)).map .val)
    | none => (h, [], .error .keyError)
  | .popDefault k v =>
    match Dict.get (h.dict d) k with
    | some a => (h.put d (Dict.del (h.dict d) k), [], (idx0 (h.list a)).map .val)
    | none => (h, [], .ok (.val v))
  | .popitem =>
    match (h.dict d).getLast? with
    | some p => (h.put d (h.dict d).dropLast, [], (idx0 (h.list p.2)).map (.item p.1))
    | none => (h, [], .error .keyError)
  | .poplist k =>
    match Dict.get (h.dict d) k with
    | some a => (h.put d (Dict.del (h.dict d) k), [a], .ok (.vals (h.list a)))
    | none => (h.alloc [], [h.lists.length], .ok (.vals []))
  | .popitemlist =>
    match (h.dict d).getLast? with
    | some p => (h.put d (h.dict d).dropLast, [p.2], .ok (.itemlist p.1 (h.list p.2)))
    | none => (h, [], .error .keyError)
  | .delitem k =>
    match Dict.get (h.dict d) k with
    | some _ => (h.put d (Dict.del (h.dict d) k), [], .ok .unit)
    | none => (h, [], .error .keyError)
  | .clear => (h.put d [], [], .ok .unit)
  | .alias k vs =>
    match Dict.get (h.dict d) k with
    | some a => (h.write a vs, [], .ok .unit)
    | none => (h, [], .ok .unit)

/-- The statements of a program that uses multi dictionaries.  A dictionary is named by its number; a list by the number of the
statement that returned it, and its place among the lists returned.  Used for datastructures.py:277-599. -/
inductive Stmt (K V : Type) where
  /-- `MultiDict(pairs)` -/
  | new (ps : List (K × V))
  /-- a list of the program -/
  | newList (vs : List V)
  /-- `MultiDict(mapping)` for a `dict` from keys to lists of the program -/
  | fromLists (m : List (K × (Nat × Nat)))
  /-- `d.copy()`, `copy.copy(d)` and `MultiDict(d)` -/
  | copy (d : Nat)
  /-- `d.deepcopy()` and `copy.deepcopy(d)` -/
  | deepcopy (d : Nat)
  /-- `pickle.loads(pickle.dumps(d))` -/
  | pickle (d : Nat)
  | call (d : Nat) (op : Op K V)
  /-- `d.setlist(k, l)` for a list of the program -/
  | setlist (d : Nat) (k : K) (l : Nat × Nat)
  /-- `d.setlistdefault(k, l)` for a list of the program -/
  | setlistdefault (d : Nat) (k : K) (l : Nat × Nat)
  /-- `d.update(e)` for another dictionary -/
  | update (d e : Nat)
  /-- `d.getlist(k)` -/
  | getlist (d : Nat) (k : K)
  /-- `[l for k, l in d.lists()]` -/
  | lists (d : Nat)
  /-- `list(d.to_dict(flat=False).values())` -/
  | toDict (d : Nat)
  /-- `list(d.listvalues())` -/
  | listvalues (d : Nat)
  /-- the contents of a list of the program are changed, as by `append`, `sort` or `del l[:]` -/
  | write (l : Nat × Nat) (vs : List V)

/-- The memory and the lists each statement returned.  Used for datastructures.py:277-599. -/
structure St (K V : Type) where
  heap : Heap K V
  vars : List (List Nat)

/-- The list object a variable refers to.  Used for datastructures.py:428, 466. -/
def St.var (s : St K V) (l : Nat × Nat) : Option Nat := ((s.vars[l.1]?).getD [])[l.2]?

/-- The values of a variable; a variable that has no list (a `NameError`) counts as empty.
Used for datastructures.py:330-331, 428, 466. -/
def St.vals (s : St K V) (l : Nat × Nat) : List V := match s.var l with
  | some a => s.heap.list a
  | none => []

/-- New list objects with the given contents.  Used for datastructures.py:400-408, 488-493. -/
def Heap.fresh (h : Heap K V) (ls : List (List V)) : Heap K V × List Nat :=
  ({ h with lists := h.lists ++ ls }, List.range' h.lists.length ls.length)

/-- One statement: the memory, the lists it returns, and its result.
datastructures.py:322-347 (constructor, `__getstate__`, `__setstate__`), 383-408 (`getlist`), 410-470, 488-523, 525-544.
Pickling asks for `items()` first, which needs a value for each key.  Simplifications: statements are about plain
`MultiDict`s; `d.update(d)`, which does not end if there is any value, does nothing here. -/
def exec (s : St K V) : Stmt K V → Heap K V × List Nat × Except PyErr (Ret K V)
  | .new ps => (s.heap.newDict (ofPairs ps), [], .ok .unit)
  | .newList vs => (s.heap.alloc vs, [s.heap.lists.length], .ok .unit)
  | .fromLists m => (s.heap.newDict (ofDict (m.map fun p => (p.1, .inr (s.vals p.2)))), [], .ok .unit)
  | .copy d => (s.heap.newDict (s.heap.view d), [], .ok .unit)
  | .deepcopy d => (s.heap.newDict (ofDict ((s.heap.view d).map fun p => (p.1, .inr p.2))), [], .ok .unit)
  | .pickle d => match MD.items (s.heap.view d) with
    | .ok _ => (s.heap.newDict (s.heap.view d), [], .ok .unit)
    | .error e => (s.heap, [], .error e)
  | .call d op => call s.heap d op
  | .setlist d k l => call s.heap d (.setlist k (s.vals l))
  | .setlistdefault d k l => call s.heap d (.setlistdefault k (s.vals l))
  | .update d e => if d = e then (s.heap, [], .ok .unit) else call s.heap d (.update (itemsMulti (s.heap.view e)))
  | .getlist d k =>
    ((s.heap.fresh [MD.getlist (s.heap.view d) k]).1, (s.heap.fresh [MD.getlist (s.heap.view d) k]).2, .ok (.vals (MD.getlist (s.heap.view d) k)))
  | .lists d => ((s.heap.fresh (listvalues (s.heap.view d))).1, (s.heap.fresh (listvalues (s.heap.view d))).2, .ok .unit)
  | .toDict d => ((s.heap.fresh (listvalues (s.heap.view d))).1, (s.heap.fresh (listvalues (s.heap.view d))).2, .ok .unit)
  | .listvalues d => (s.heap, (s.heap.dict d).map (·.2), .ok .unit)
  | .write l vs => match s.var l with
    | some a => (s.heap.write a vs, [], .ok .unit)
    | none => (s.heap, [], .ok .unit)

/-- The state after a statement.  Used for datastructures.py:277-599. -/
def step (s : St K V) (p : Stmt K V) : St K V := ⟨(exec s p).1, s.vars ++ [(exec s p).2.1]⟩

/-- The state after a program that starts with nothing.  Used for datastructures.py:277-599. -/
def run (ps : List (Stmt K V)) : St K V := ps.foldl step ⟨⟨[], []⟩, []⟩

/-- `OrderedMultiDict(items)`, datastructures.py:650-654, 769-771. -/
def orderedOf (ps : List (K × V)) : OMD.ODict K V := ps.foldl (fun o p => OMD.add o p.1 p.2) OMD.empty

/-- `OrderedMultiDict.copy()`, datastructures.py:517-519 with 650-654, and the result of pickling, 683-684. -/
def orderedCopy (o : OMD.ODict K V) : OMD.ODict K V := orderedOf (OMD.itemsMulti o)

/-- `OrderedMultiDict.deepcopy()`, datastructures.py:521-523, 539: by way of a `dict` of lists. -/
def orderedDeepcopy (o : OMD.ODict K V) : OMD.ODict K V := orderedOf (MD.itemsMulti (OMD.lists o))

/-- `needle in text` for texts.  Used for datastructures.py:846. -/
def within (needle : Str) : Str → Bool
  | [] => needle.isEmpty
  | c :: cs => needle.isPrefixOf (c :: cs) || within needle cs

/-- `c.deepcopy()[key]` for a `CombinedMultiDict` with texts as keys, datastructures.py:521-523 with 835-836 and 844-848: the
deep copy has a `dict` in place of its list of dictionaries, so that lookups iterate over its keys. -/
def combinedDeepGetitem (c : CMD.CDict Str V) (key : Str) : Except PyErr V :=
  if (Dict.keys (CMD.toDictLists c)).any (within key) then .error .typeError else .error .keyError

end Verif.Heap
