import Verif.Model.Routing

/-!
# Factories of routes

Models routing.py:254-408 (`RouteFactory`, `Subdomain`, `Submount`, `EndpointPrefix`,
`RouteTemplate`, `RouteTemplateFactory`), 533-571 (`Route.empty`, `get_routes`, `bind`) and
1095-1109 (`URLMap.add_routes` with factories).

A route is an object that can be bound to one map only, so the routes live in a store of
objects and a factory refers to them by number.  Copies made by factories are new objects that
nobody else holds; they are given as plain values.

Simplifications: the end points are strings (`EndpointPrefix` needs that); user-defined
factories are not modelled; the values of the context of a template are given as their text.
-/

namespace Verif.Routing

/-! ### `str.format` with keyword arguments -/

/-- Whether a replacement field is only a name: no attribute, index, conversion or format
specification.  Used for routing.py:386-408. -/
def plainField (s : Str) : Bool := s.all fun c => !(c == '.' || c == '[' || c == '!' || c == ':' || c == '{')

/-- The text of a replacement field, routing.py:386-408: a missing name is a `KeyError`, an
empty or a numeric one an `IndexError` as there are no positional arguments.  Simplification: a
field which is not only a name is a `notImplemented` of the model. -/
def fieldText (ctx : List (Str × Str)) (name : Str) : Except PyErr Str :=
  if plainField name = false then .error .notImplemented
  else if name.all (fun c => 48 ≤ c.toNat && c.toNat ≤ 57) then .error .indexError
  else match Dict.get ctx name with
    | some v => .ok v
    | none => .error .keyError

/-- `s.format(**ctx)`, used for routing.py:386-408.  The first argument is the text of the
replacement field that is being read, if any. -/
def formatGo (ctx : List (Str × Str)) : Option Str → Str → Except PyErr Str
  | none, [] => .ok []
  | some _, [] => .error .valueError
  | none, '{' :: '{' :: s => (formatGo ctx none s).map ('{' :: ·)
  | none, '}' :: '}' :: s => (formatGo ctx none s).map ('}' :: ·)
  | none, c :: s =>
    if c = '{' then formatGo ctx (some []) s
    else if c = '}' then .error .valueError
    else (formatGo ctx none s).map (c :: ·)
  | some name, c :: s =>
    if c = '}' then
      match fieldText ctx name with
      | .error e => .error e
      | .ok v => (formatGo ctx none s).map (v ++ ·)
    else formatGo ctx (some (name ++ [c])) s

/-- `s.format(**ctx)`, used for routing.py:386-408. -/
def format (ctx : List (Str × Str)) (s : Str) : Except PyErr Str := formatGo ctx none s

/-! ### factories -/

/-- A factory: a route object, or one of the classes of routing.py:267-408. -/
inductive Factory where
  | route (obj : Nat)
  | subdomain (s : Str) (routes : List Factory)
  | submount (path : Str) (routes : List Factory)
  | endpointPrefix (pre : Str) (routes : List Factory)
  | template (ctx : List (Str × Str)) (routes : List Factory)

/-- What a generator of routes gives: the routes up to its end, or up to an exception.
Used for routing.py:267-408. -/
abbrev Gen := List Route × Option PyErr

/-- `for route in gen: yield f(route)`.  Used for routing.py:290-295, 316-321, 341-346 and 386-408. -/
def mapGen (f : Route → Except PyErr Route) : List Route → Option PyErr → Gen
  | [], e => ([], e)
  | r :: rs, e =>
    match f r with
    | .error e' => ([], some e')
    | .ok r' => let g := mapGen f rs e; (r' :: g.1, g.2)

/-- `Route.empty`, routing.py:533-543: the constructor checks the rule again (511-512). -/
def Route.empty (r : Route) : Except PyErr Route :=
  if r.rule.head? ≠ some '/' then .error .valueError else .ok r

/-- `Subdomain.get_routes` for one route, routing.py:290-295. -/
def underSubdomain (s : Str) (r : Route) : Except PyErr Route :=
  r.empty.map fun r => { r with subdomain := some s }

/-- `Submount.get_routes` for one route, routing.py:312 and 316-321. -/
def underPath (path : Str) (r : Route) : Except PyErr Route :=
  r.empty.map fun r => { r with rule := rstripSlash path ++ r.rule }

/-- `EndpointPrefix.get_routes` for one route, routing.py:341-346. -/
def underPrefix (pre : Str) (r : Route) : Except PyErr Route :=
  r.empty.map fun r => { r with endpoint := pre ++ r.endpoint }

/-- A value of the defaults in a template, routing.py:392-395. -/
def formatVal (ctx : List (Str × Str)) : Val → Except PyErr Val
  | .str s => (format ctx s).map .str
  | v => .ok v

/-- The defaults in a template, routing.py:390-395. -/
def formatDefaults (ctx : List (Str × Str)) : Values → Except PyErr Values
  | [] => .ok []
  | (k, v) :: d =>
    match formatVal ctx v with
    | .error e => .error e
    | .ok v' => (formatDefaults ctx d).map ((k, v') :: ·)

/-- The subdomain in a template, routing.py:396-397. -/
def formatOpt (ctx : List (Str × Str)) : Option Str → Except PyErr (Option Str)
  | none => .ok none
  | some s => (format ctx s).map some

/-- `RouteTemplateFactory.get_routes` for one route, routing.py:386-408.  Only five fields are
passed on. -/
def fromTemplate (ctx : List (Str × Str)) (r : Route) : Except PyErr Route :=
  match formatDefaults ctx r.defaults with
  | .error e => .error e
  | .ok d =>
    match formatOpt ctx r.subdomain with
    | .error e => .error e
    | .ok s =>
      match format ctx r.endpoint with
      | .error e => .error e
      | .ok en =>
        match format ctx r.rule with
        | .error e => .error e
        | .ok rule =>
          Route.empty { rule := rule, defaults := d, subdomain := s, buildOnly := r.buildOnly, endpoint := en
                        strictSlashes := r.strictSlashes }

/-- A route object: its fields, and whether it is bound.  Used for routing.py:507-571. -/
structure Obj where
  route : Route
  bound : Bool := false

mutual
/-- `get_routes`, routing.py:267-408 and 545-546. -/
def Factory.routes (objs : Nat → Obj) : Factory → Gen
  | .route i => ([(objs i).route], none)
  | .subdomain s fs => let g := factoryRoutes objs fs; mapGen (underSubdomain s) g.1 g.2
  | .submount p fs => let g := factoryRoutes objs fs; mapGen (underPath p) g.1 g.2
  | .endpointPrefix p fs => let g := factoryRoutes objs fs; mapGen (underPrefix p) g.1 g.2
  | .template c fs => let g := factoryRoutes objs fs; mapGen (fromTemplate c) g.1 g.2
/-- The routes of some factories one after the other, routing.py:291-292 and the like. -/
def factoryRoutes (objs : Nat → Obj) : List Factory → Gen
  | [] => ([], none)
  | f :: fs =>
    let g := f.routes objs
    match g.2 with
    | some e => (g.1, some e)
    | none => let h := factoryRoutes objs fs; (g.1 ++ h.1, h.2)
end

/-! ### adding factories to maps -/

/-- `compile`, routing.py:583-636, of a route whose rule was changed after the check of the
constructor (routing.py:511-512). -/
def compileRaw (cfg : Config) (id : Nat) (r : Route) : Except PyErr Bound :=
  let strict := r.strictSlashes.getD cfg.strictSlashes
  let domain := if cfg.hostMatching then r.host.getD [] else r.subdomain.getD cfg.defaultSubdomain
  match parseRoute domain, parseRoute (if r.leaf then r.rule else rstripSlash r.rule) with
  | .error e, _ => .error e
  | .ok _, .error e => .error e
  | .ok ds, .ok ps =>
    match build_regex cfg ds, build_regex cfg ps with
    | .error e, _ => .error e
    | .ok _, .error e => .error e
    | .ok d, .ok p =>
      let b : Bound := ⟨id, r, strict, d, p⟩
      if b.names.Nodup ∨ r.buildOnly then .ok b
      else .error .runtimeError

/-- The routes of a program and its maps.  Used for routing.py:556-571 and 1095-1109. -/
structure World where
  objs : Nat → Obj
  maps : Nat → URLMap

/-- A change of one map.  Used for routing.py:1095-1109. -/
def World.setMap (w : World) (k : Nat) (m : URLMap) : World :=
  { w with maps := fun j => if j = k then m else w.maps j }

/-- `bind` fills in the settings of the map and remembers the map, routing.py:556-571; both
stay if the route can not be compiled. -/
def Obj.bind (cfg : Config) (o : Obj) : Obj :=
  { route := { o.route with
      strictSlashes := some (o.route.strictSlashes.getD cfg.strictSlashes)
      subdomain := some (o.route.subdomain.getD cfg.defaultSubdomain) }
    bound := true }

/-- Binding unbound routes and adding them to a map, routing.py:1104-1108. -/
def bindAll : URLMap → List Route → URLMap × Option PyErr
  | m, [] => (m, none)
  | m, r :: rs =>
    match compileRaw m.cfg m.count r with
    | .error e => (m, some e)
    | .ok b => bindAll (m.push b) rs

/-- One argument of `add_routes`, routing.py:1103-1108: a route object is bound itself, a
factory gives new objects. -/
def World.addOne (w : World) (k : Nat) : Factory → World × Option PyErr
  | .route i =>
    if (w.objs i).bound then (w, some .runtimeError)
    else
      let g := bindAll (w.maps k) [(w.objs i).route]
      ({ w.setMap k g.1 with
          objs := fun j => if j = i then (w.objs i).bind (w.maps k).cfg else w.objs j }, g.2)
  | f =>
    let rs := f.routes w.objs
    let g := bindAll (w.maps k) rs.1
    (w.setMap k g.1, match g.2 with | some e => some e | none => rs.2)

/-- `add_routes`, routing.py:1095-1109. -/
def World.add (w : World) (k : Nat) : List Factory → World × Option PyErr
  | [] => (w.setMap k { w.maps k with remap := true }, none)
  | f :: fs =>
    let g := w.addOne k f
    match g.2 with
    | some e => (g.1, some e)
    | none => g.1.add k fs

end Verif.Routing
