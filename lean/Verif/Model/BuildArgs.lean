import Verif.Model.Routing
/-!
Model of what may be given to `MapAdapter.build` as values, `/repo/verktyg/routing.py:1531-1549` with
682-747 and `/repo/verktyg/datastructures.py:325-340, 472-486`.
-/
namespace Verif.Routing
open Verif

/-- A value in a dictionary given to `build`: `None`, a value, or a list of values.
Used for routing.py:1531-1538. -/
inductive GivenArg where
  | none
  | one (v : Val)
  | many (vs : List Val)
deriving DecidableEq

/-- The `values` given to `build`: nothing, a dictionary, or a `MultiDict` with its lists.
Used for routing.py:1531-1538. -/
inductive Given where
  | nothing
  | dict (d : List (Str × GivenArg))
  | multi (d : List (Str × List Val))

/-- The dictionary that `build` makes, routing.py:1532-1540.  A `MultiDict` that is not empty has no
method `iteritems`. -/
def Given.resolve : Given → Except PyErr (List (Str × GivenArg))
  | .nothing => .ok []
  | .dict d => .ok (d.filter fun p => decide (p.2 ≠ .none))
  | .multi [] => .ok []
  | .multi (_ :: _) => .error .attributeError

/-- `suitable_for`, routing.py:727-747: a list differs from every default. -/
def Bound.suitableArgs (b : Bound) (values : List (Str × GivenArg)) : Bool :=
  b.arguments.all (fun k => Dict.has b.route.defaults k || Dict.has values k) &&
    b.route.defaults.all fun kv => match Dict.get values kv.1 with
      | some (.one v) => v == kv.2
      | some _ => false
      | none => true

/-- A value as a converter is given it, routing.py:689-698; `listText vs` is `str(vs)`.
Simplification: the number converters raise `ValueError` for a list, not `TypeError`. -/
def GivenArg.single (listText : List Val → Str) : GivenArg → Val
  | .one v => v
  | .many vs => .str (listText vs)
  | .none => .str s%"None"

/-- `MultiDict(values).items()`, datastructures.py:327-335 and 472-486: the first value of a list. -/
def firsts : List (Str × GivenArg) → Except PyErr Values
  | [] => .ok []
  | (k, a) :: l =>
    match a with
    | .many [] => .error .indexError
    | .many (v :: _) =>
      match firsts l with
      | .error e => .error e
      | .ok r => .ok ((k, v) :: r)
    | .one v =>
      match firsts l with
      | .error e => .error e
      | .ok r => .ok ((k, v) :: r)
    | .none =>
      match firsts l with
      | .error e => .error e
      | .ok r => .ok ((k, .str s%"None") :: r)

/-- `Route.build`, routing.py:682-714. -/
def Bound.buildArgs (listText : List Val → Str) (b : Bound) (values : List (Str × GivenArg)) (appendUnknown : Bool) :
    Except PyErr (Option (Str × Str)) :=
  match buildParts (values.map fun p => (p.1, p.2.single listText)) b.trace with
  | .error e => .error e
  | .ok none => .ok none
  | .ok (some t) =>
    let s := Py.split1 '|' t
    if appendUnknown then
      match firsts (values.filter fun kv => !b.arguments.contains kv.1) with
      | .error e => .error e
      | .ok rest =>
        .ok (some (s.1, s.2.getD [] ++ (if rest = [] then [] else s%"?" ++ urlencode (sortBy (fun x y => !strLt y.1 x.1) rest))))
    else .ok (some (s.1, s.2.getD []))

/-- The routes tried by `build`, routing.py:1542-1549. -/
def buildArgsGo (listText : List Val → Str) (values : List (Str × GivenArg)) (appendUnknown : Bool) :
    List Bound → Except PyErr (Option (Str × Str))
  | [] => .ok none
  | b :: bs =>
    if b.suitableArgs values then
      match b.buildArgs listText values appendUnknown with
      | .ok none => buildArgsGo listText values appendUnknown bs
      | r => r
    else buildArgsGo listText values appendUnknown bs

/-- The address of a route that was built, routing.py:1552-1567. -/
def addressOf (m : URLMap) (a : Adapter) (forceExternal : Bool) (domainPart path : Str) : Str :=
  let host := getHost m.cfg a (some domainPart)
  if forceExternal = false ∧ ((m.cfg.hostMatching ∧ host = a.serverName) ∨
      (m.cfg.hostMatching = false ∧ domainPart = a.subdomain)) then
    m.cfg.urljoin a.scriptName (s%"./" ++ lstripSlash path)
  else unparse a.scheme host (joinPath a.scriptName (lstripSlash path)) []

/-- `MapAdapter.build`, routing.py:1480-1567. -/
def buildGiven (listText : List Val → Str) (m : URLMap) (a : Adapter) (endpoint : Str) (given : Given)
    (forceExternal appendUnknown : Bool) : Except PyErr Str :=
  match given.resolve with
  | .error e => .error e
  | .ok values =>
    match buildArgsGo listText values appendUnknown (m.update.byEndpoint endpoint) with
    | .error e => .error e
    | .ok none => .error .buildError
    | .ok (some (domainPart, path)) => .ok (addressOf m a forceExternal domainPart path)

end Verif.Routing
