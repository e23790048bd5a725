import Verif.Model.Routing
import Verif.Model.RequestUrl
/-!
Questions to a map of routes: routing.py:1062-1093 (`is_endpoint_expecting`, `iter_routes`), 775-782
(equality of routes) and 1448-1451 (`encode_query_args`).
-/
namespace Verif.Routing
open Verif

/-- `self._routes_by_endpoint[endpoint]`, routing.py:1078 and 1092: the dictionary has a list for an end point
once a route with it was added, routing.py:1106-1108, and this list is never empty. -/
def URLMap.ofEndpoint (m : URLMap) (e : Str) : Except PyErr (List Bound) :=
  if (m.byEndpoint e).isEmpty then .error .keyError else .ok (m.byEndpoint e)

/-- The loop of `is_endpoint_expecting`, routing.py:1078-1081. -/
def expectingGo (args : List Str) : List Bound → Bool
  | [] => false
  | b :: bs => if args.all b.arguments.contains then true else expectingGo args bs

/-- `is_endpoint_expecting`, routing.py:1062-1081: the map afterwards, and the answer. -/
def URLMap.isEndpointExpecting (m : URLMap) (e : Str) (args : List Str) : URLMap × Except PyErr Bool :=
  (m.update, (m.update.ofEndpoint e).map (expectingGo args))

/-- `iter_routes`, routing.py:1083-1093: the map afterwards, and the routes in their order. -/
def URLMap.iterRoutes (m : URLMap) : Option Str → URLMap × Except PyErr (List Bound)
  | some e => (m.update, m.update.ofEndpoint e)
  | none => (m.update, .ok m.update.routes)

/-- `Route.__eq__`, routing.py:775-779: the traces are compared, the converters are not part of them. -/
def Bound.eq (a b : Bound) : Bool := sameTrace a.trace b.trace

/-- A value among the query arguments: one text, or a list of texts.  Used for routing.py:1448-1451. -/
inductive QueryVal where
  | one (s : Str)
  | many (l : List Str)

/-- The query arguments: a text, or the pairs of a dictionary.  Used for routing.py:1448-1451. -/
inductive QueryArgs where
  | text (s : Str)
  | pairs (l : List (Str × QueryVal))

/-- The pairs written for a key of a dictionary with `doseq`.  Used for routing.py:1448-1451. -/
def QueryVal.pairs (k : Str) : QueryVal → List (Str × Str)
  | .one s => [(k, s)]
  | .many vs => vs.map fun v => (k, v)

/-- `encode_query_args`, routing.py:1448-1451.  The charset is passed where `urllib.parse.urlencode` has its
flag `doseq`, which thus is true: a list is written as one pair for each of its elements. -/
def encodeQueryArgs : QueryArgs → Str
  | .text s => s
  | .pairs l => ReqUrl.urlencode (l.flatMap fun kv => kv.2.pairs kv.1)

end Verif.Routing
