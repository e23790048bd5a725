import Verif.Model.Routing
/-!
Threads that add routes to one `URLMap` while others look up routes in it: `/repo/verktyg/routing.py:1095-1109`
(`add_routes`), `1237-1245` (`update`) and `1347-1390` (the loop of `match`), one step at a time.  What one thread does
between two steps is not divided (the interpreter lock).  Sorting a list has two steps, as in CPython: the list is emptied
when sorting starts, and filled again when sorting is done; what was put into it meanwhile is thrown away and
`ValueError: list modified during sort` is raised.  A dictionary that grew while a loop runs over it raises `RuntimeError`
at the next turn.
-/
namespace Verif.Adders
open Verif Verif.Routing

/-- What the threads share: `_routes`, `_routes_by_endpoint` and `_remap`, routing.py:1042-1044. -/
structure Sh where
  routes : List Bound
  eps : List (Str × List Bound)
  remap : Bool

/-- Where a thread stands.  A thread that adds has the routes it still has to add, or has put one into the list of all
routes and not yet into the list of its end point, or is done (routing.py:1102-1109).  A thread that looks up stands before
the check of `_remap`, before or within the first sort, in the loop over the lists of the end points (with the size the
dictionary had and the number of the turn), within the sort of one of them, before `_remap = False` (1241-1245), in the loop
over the routes (1347), or at its end.  `hit` tells which routes end that loop. -/
inductive Pc where
  | adding (todo : List Bound)
  | filing (b : Bound) (todo : List Bound)
  | added
  | check (hit : Bound → Bool)
  | sort (hit : Bound → Bool)
  | sorting (saved : List Bound) (hit : Bound → Bool)
  | next (size i : Nat) (hit : Bound → Bool)
  | sortingE (e : Str) (saved : List Bound) (size i : Nat) (hit : Bound → Bool)
  | clear (hit : Bound → Bool)
  | scan (i : Nat) (hit : Bound → Bool)
  | found (b : Bound)
  | missed
  | failed (e : PyErr)

/-- The list of an end point, or an empty one.  Used for routing.py:1106-1108. -/
def listOf (eps : List (Str × List Bound)) (e : Str) : List Bound := (Dict.get eps e).getD []

/-- One step of a thread: routing.py:1102-1109 for `add_routes`, 1241-1245 for `update`, 1347 for the loop of `match`. -/
def step (s : Sh) : Pc → Sh × Pc
  | .adding [] => ({ s with remap := true }, .added)
  | .adding (b :: todo) => ({ s with routes := s.routes ++ [b] }, .filing b todo)
  | .filing b todo => ({ s with eps := Dict.set s.eps b.route.endpoint (listOf s.eps b.route.endpoint ++ [b]) }, .adding todo)
  | .added => (s, .added)
  | .check hit => if s.remap then (s, .sort hit) else (s, .scan 0 hit)
  | .sort hit =>
    if s.routes.isEmpty then (s, .next s.eps.length 0 hit) else ({ s with routes := [] }, .sorting s.routes hit)
  | .sorting saved hit =>
    ({ s with routes := sortBy matchLe saved },
      if s.routes.isEmpty then .next s.eps.length 0 hit else .failed .valueError)
  | .next size i hit =>
    if s.eps.length ≠ size then (s, .failed .runtimeError)
    else match s.eps[i]? with
      | none => (s, .clear hit)
      | some (e, l) =>
        if l.isEmpty then (s, .next size (i + 1) hit)
        else ({ s with eps := Dict.set s.eps e [] }, .sortingE e l size i hit)
  | .sortingE e saved size i hit =>
    ({ s with eps := Dict.set s.eps e (sortBy buildLe saved) },
      if (listOf s.eps e).isEmpty then .next size (i + 1) hit else .failed .valueError)
  | .clear hit => ({ s with remap := false }, .scan 0 hit)
  | .scan i hit =>
    match s.routes[i]? with
    | none => (s, .missed)
    | some b => if hit b then (s, .found b) else (s, .scan (i + 1) hit)
  | .found b => (s, .found b)
  | .missed => (s, .missed)
  | .failed e => (s, .failed e)

/-- Shared state and threads.  Used for routing.py:1095-1109, 1237-1245. -/
structure World where
  shared : Sh
  threads : List Pc

/-- Thread `j` makes a step.  Used for routing.py:1095-1109, 1237-1245. -/
def World.step (w : World) (j : Nat) : World :=
  match w.threads[j]? with
  | none => w
  | some pc => ⟨(Adders.step w.shared pc).1, w.threads.set j (Adders.step w.shared pc).2⟩

/-- The threads take turns as the list says.  Used for routing.py:1095-1109, 1237-1245. -/
def World.run (w : World) (schedule : List Nat) : World := schedule.foldl World.step w

/-- The state of a map, given its end points in the order in which they came.  Used for routing.py:1042-1044. -/
def shared (m : URLMap) (endpoints : List Str) : Sh := ⟨m.routes, endpoints.map fun e => (e, m.byEndpoint e), m.remap⟩

end Verif.Adders
