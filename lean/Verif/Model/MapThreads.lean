import Verif.Model.Routing
/-!
Threads that look up routes in one `URLMap` at the same time: `/repo/verktyg/routing.py:1237-1245` (`update`) and the
loops over the lists of routes (`match`, 1347-1390; `get_default_redirect`, 1426-1446; `build`, 1542-1552), one step at a
time.  What one thread does between two steps is not divided (the interpreter lock).  Sorting a list has two steps, as in
CPython: the list is emptied when sorting starts, the keys are computed by Python code (where another thread may run), and
it is filled again when sorting is done; an empty list is sorted in one step.
-/
namespace Verif.Threads
open Verif Verif.Routing

/-- The lists of a map: `_routes` (`none`) and `_routes_by_endpoint[e]`.  Used for routing.py:1042-1044. -/
abbrev Key := Option Str

/-- What the threads share, routing.py:1042-1044. -/
structure Shared where
  lists : Key → List Bound
  remap : Bool

/-- A list gets new contents.  Used for routing.py:1242-1244. -/
def Shared.set (s : Shared) (k : Key) (l : List Bound) : Shared :=
  { s with lists := fun k' => if k' = k then l else s.lists k' }

/-- What a thread does with the map: `update()`, loops that stop at the first route that is a hit, and the end with a
result.  Used for routing.py:1336-1390, 1426-1446 and 1527-1552. -/
inductive Prog (R : Type) where
  | ret (r : R)
  | update (rest : Prog R)
  | scan (key : Key) (hit : Bound → Bool) (next : Bound → Prog R) (otherwise : Prog R)

/-- Where a thread stands: before a command, between the sorts of `update`, within a sort, in a loop at an index, or at
its end.  Used for routing.py:1237-1245, 1347. -/
inductive Pc (R : Type) where
  | run (p : Prog R)
  | sort (todo : List Key) (rest : Prog R)
  | sorting (key : Key) (saved : List Bound) (todo : List Key) (rest : Prog R)
  | scanning (key : Key) (hit : Bound → Bool) (next : Bound → Prog R) (otherwise : Prog R) (i : Nat)
  | done (r : R)

/-- The order of the routes in a list, routing.py:1242 and 1244. -/
def le : Key → Bound → Bound → Bool
  | none => matchLe
  | some _ => buildLe

/-- One step of a thread: routing.py:1241-1245 for `update`, 1347 and its like for loops (an iterator over a list takes
what is at its index now, and stops for good where there is nothing).  `keys` are the lists of the map in the order
of `update`. -/
def step {R : Type} (keys : List Key) (s : Shared) : Pc R → Shared × Pc R
  | .run (.ret r) => (s, .done r)
  | .run (.update p) => if s.remap then (s, .sort keys p) else (s, .run p)
  | .run (.scan k hit next other) => (s, .scanning k hit next other 0)
  | .sort [] p => ({ s with remap := false }, .run p)
  | .sort (k :: ks) p => if (s.lists k).isEmpty then (s, .sort ks p) else (s.set k [], .sorting k (s.lists k) ks p)
  | .sorting k saved ks p => (s.set k (sortBy (le k) saved), .sort ks p)
  | .scanning k hit next other i =>
    match (s.lists k)[i]? with
    | none => (s, .run other)
    | some b => if hit b then (s, .run (next b)) else (s, .scanning k hit next other (i + 1))
  | .done r => (s, .done r)

/-- Shared state and threads.  Used for routing.py:1237-1245. -/
structure World (R : Type) where
  shared : Shared
  threads : List (Pc R)

/-- Thread `j` makes a step.  Used for routing.py:1237-1245. -/
def World.step {R : Type} (keys : List Key) (w : World R) (j : Nat) : World R :=
  match w.threads[j]? with
  | none => w
  | some pc =>
    let r := Threads.step keys w.shared pc
    ⟨r.1, w.threads.set j r.2⟩

/-- The threads take turns as the list says.  Used for routing.py:1237-1245. -/
def World.run {R : Type} (keys : List Key) (w : World R) (schedule : List Nat) : World R := schedule.foldl (World.step keys) w

/-- The lists of a map.  Used for routing.py:1042-1044. -/
def shared (m : URLMap) : Shared :=
  ⟨fun k => match k with
    | none => m.routes
    | some e => m.byEndpoint e, m.remap⟩

/-- Threads that begin with a map.  Used for routing.py:1336, 1527. -/
def start {R : Type} (m : URLMap) (ps : List (Prog R)) : World R := ⟨shared m, ps.map .run⟩

/-- Whether a route ends the loop of `build`, routing.py:1544-1549. -/
def builds (values : Values) (appendUnknown : Bool) (b : Bound) : Bool :=
  b.suitableFor values && match b.build values appendUnknown with
    | .ok none => false
    | _ => true

/-- The address of a built path, routing.py:1552-1567. -/
def buildEnd (cfg : Config) (a : Adapter) (forceExternal : Bool) : Except PyErr (Option (Str × Str)) → Except PyErr Str
  | .error e => .error e
  | .ok none => .error .buildError
  | .ok (some (domainPart, path)) =>
    let host := getHost cfg a (some domainPart)
    if forceExternal = false ∧ ((cfg.hostMatching ∧ host = a.serverName) ∨
        (cfg.hostMatching = false ∧ domainPart = a.subdomain)) then
      .ok (cfg.urljoin a.scriptName (s%"./" ++ lstripSlash path))
    else .ok (unparse a.scheme host (joinPath a.scriptName (lstripSlash path)) [])

/-- `MapAdapter.build`, routing.py:1527-1567, and what is done with its result. -/
def buildProg {R : Type} (cfg : Config) (a : Adapter) (endpoint : Str) (values : Values) (forceExternal appendUnknown : Bool)
    (k : Except PyErr Str → Prog R) : Prog R :=
  .update (.scan (some endpoint) (builds values appendUnknown)
    (fun b => k (buildEnd cfg a forceExternal (b.build values appendUnknown))) (k (.error .buildError)))

/-- The end of `match` with a route that matches, routing.py:1367-1388. -/
def finish (cfg : Config) (a : Adapter) (b : Bound) (vs : Values) : Except PyErr Answer :=
  match b.route.redirectTo with
  | some t =>
    match redirectTarget cfg a b vs t with
    | .error e => .error e
    | .ok url => .ok (.redirect url)
  | none => .ok (.found b vs)

/-- The address of a route with defaults, routing.py:1439-1446. -/
def defaultEnd (cfg : Config) (a : Adapter) (values : Values) (query : Str) (r : Bound) : Except PyErr Answer :=
  match r.build (Routing.update values r.route.defaults) true with
  | .error e => .error e
  | .ok none => .error .typeError
  | .ok (some (d, path)) => .ok (.redirect (makeRedirectUrl cfg a path query (some d)))

/-- The address of an alias, routing.py:1468-1478. -/
def aliasEnd (path query : Str) : Except PyErr Str → Except PyErr Answer
  | .error e => .error e
  | .ok url =>
    let url := if query ≠ [] then url ++ s%"?" ++ query else url
    if url = path then .error .assertionError else .ok (.redirect url)

/-- `MapAdapter.match`, routing.py:1336-1390. -/
def matchProg (cfg : Config) (a : Adapter) (pathInfo query : Str) : Prog (Except PyErr Answer) :=
  let path := fullPath cfg a pathInfo
  .update (.scan none
    (fun b => match b.match_ cfg path with | .none => false | _ => true)
    (fun b => match b.match_ cfg path with
      | .none => .ret (.error .notFound)
      | .slash => .ret (.ok (.redirect (makeRedirectUrl cfg a (urlquote b%"/:|+" pathInfo ++ s%"/") query none)))
      | .alias vs => buildProg cfg a b.route.endpoint vs true false fun r => .ret (aliasEnd path query r)
      | .values vs =>
        if cfg.redirectDefaults then
          .scan (some b.route.endpoint) (fun r => r.id == b.id || (r.providesDefaultsFor b && r.suitableFor vs))
            (fun r => if r.id = b.id then .ret (finish cfg a b vs) else .ret (defaultEnd cfg a vs query r))
            (.ret (finish cfg a b vs))
        else .ret (finish cfg a b vs))
    (.ret (.error .notFound)))

end Verif.Threads
