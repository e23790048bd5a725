import Verif.Model.Application
import Verif.Model.RouteFactory
/-!
Model of the `ApplicationBuilder` of `/repo/verktyg/application.py`: what is registered with it, and
the applications it builds.
-/
namespace Verif.AppBuilder
open Verif Verif.Routing Verif.Dispatch Verif.Accept

/-! ### The classes -/

/-- The next class of a linearisation: the first head that is in no tail.  Used for the `class`
statements of application.py:213-217. -/
def candidate (ls : List (List Nat)) : Option Nat :=
  (ls.filterMap List.head?).find? fun c => ls.all fun l => decide (c ∉ l.tail)

/-- A class is taken from the front of the lists that start with it.  Used for
application.py:213-217. -/
def removeHead (c : Nat) (ls : List (List Nat)) : List (List Nat) :=
  ls.map fun l => if l.head? = some c then l.tail else l

/-- The merging of linearisations; every step takes a class from one of the lists, so that
their total length bounds the number of steps.  Used for application.py:213-217. -/
def mergeGo : Nat → List (List Nat) → Option (List Nat)
  | 0, ls => if ls.all List.isEmpty then some [] else none
  | fuel + 1, ls =>
    if ls.all List.isEmpty then some []
    else
      match candidate ls with
      | some c => (mergeGo fuel (removeHead c ls)).map (c :: ·)
      | none => none

/-- The method resolution order of a class with the given bases, but for the class itself; `none`
is the `TypeError` of a `class` statement.  `mro` is that of the bases.  Used for
application.py:213-217. -/
def linearise (mro : Nat → List Nat) (bases : List Nat) : Option (List Nat) :=
  let ls := bases.map mro ++ [bases]
  mergeGo ls.flatten.length ls

/-- Looking up an attribute: the first class that defines it.  Used for application.py:213-217. -/
def resolve (defines : Nat → Str → Bool) (name : Str) (mro : List Nat) : Option Nat :=
  mro.find? fun c => defines c name

/-! ### The builder -/

/-- A converter class, called with the text of its arguments.  Used for application.py:148-149. -/
abbrev ConvClass := Option Str → Except PyErr Converter

/-- A factory of bindings: some bindings, or a dispatcher of the program.  Used for
application.py:154-155. -/
inductive Source where
  | own (bs : List Binding)
  | dispatcher (d : Nat)

/-- `ApplicationBuilder`, application.py:108-136. -/
structure Builder where
  routes : List Factory
  convs : List (Str × ConvClass)
  bindings : List Source
  handlers : List Handler
  middleware : List Nat
  appBases : List Nat
  reqBases : List Nat

/-- A decorator made by `expose`: its end point and its route, if any, and the methods,
application.py:157-171. -/
structure Deco where
  endpoint : Option Str
  route : Option Str
  methods : Methods

/-- An application, application.py:28-54: the number of its map, and the rest of it. -/
structure Built where
  map : Nat
  bound : BoundMap
  disp : Disp
  handlers : Handlers
  middleware : List Nat
  appMro : List Nat
  reqMro : List Nat

/-- What a program has: route objects and maps, dispatchers, decorators, the builder, and the
applications built; `count` is the number of maps.  Used for application.py:108-227. -/
structure State where
  world : World
  disps : Nat → Disp
  decos : List Deco
  builder : Builder
  apps : List Built
  count : Nat

/-- What the program does not change: the settings of maps, the library functions, the classes.
Used for application.py:108-136. -/
structure Env where
  cfg : Config
  lower : Str → Str
  other : Str → Except PyErr Str
  mro : Nat → List Nat

/-- `add_application_mixins` and `add_request_mixins`, application.py:138-146. -/
def addBases (bases mixins : List Nat) : List Nat :=
  mixins.foldl (fun bs m => if m ∈ bs then bs else bs ++ [m]) bases

/-- `ApplicationBuilder(...)`, application.py:109-136; `redirects` and `mixins` are the default
handler and the default mixins, where they are wanted. -/
def Builder.new (base reqBase : Nat) (redirects : Option Handler) (mixins : List Nat) : Builder :=
  ⟨[], [], [], redirects.toList, [], [base], addBases [reqBase] mixins⟩

/-- The settings of the map of an application, application.py:36 and routing.py:1051-1053: the
converters of the builder come before the others. -/
def config (e : Env) (convs : List (Str × ConvClass)) : Config :=
  { e.cfg with conv := fun name args =>
      match Dict.get convs name with
      | some c => c args
      | none => e.cfg.conv name args }

/-- `dict.update`, application.py:149. -/
def update (d new : List (Str × ConvClass)) : List (Str × ConvClass) := new.foldl (fun d kv => Dict.set d kv.1 kv.2) d

/-- The bindings a factory yields now.  Used for application.py:44. -/
def Source.bindings (disps : Nat → Disp) : Source → List Binding
  | .own bs => bs
  | .dispatcher d => (disps d).views

/-- `ApplicationBuilder.__call__`, application.py:212-227, with `BaseApplication.__init__`,
application.py:29-54.  A map that could not be filled is lost, but its routes stay bound. -/
def build (e : Env) (s : State) (root : Str) : State × Except PyErr Built :=
  match linearise e.mro s.builder.appBases with
  | none => (s, .error .typeError)
  | some appMro =>
    match linearise e.mro s.builder.reqBases with
    | none => (s, .error .typeError)
    | some reqMro =>
      let cfg := config e s.builder.convs
      let g := (s.world.setMap s.count (URLMap.new cfg)).add s.count s.builder.routes
      let s' := { s with world := g.1, count := s.count + 1 }
      match g.2 with
      | some err => (s', .error err)
      | none =>
        match Application.bindRoot cfg e.lower e.other root with
        | .error err => (s', .error err)
        | .ok bound =>
          let app : Built :=
            ⟨s.count, bound, s.builder.bindings.foldl (fun d f => d.addAll (f.bindings s.disps)) .empty,
              s.builder.handlers.foldl addHandler [], s.builder.middleware, appMro, reqMro⟩
          ({ s' with apps := s.apps ++ [app] }, .ok app)

/-- Using a decorator made by `expose` on a function, application.py:161-170: `endpoint` is
`nonlocal`, and the route is taken out of the keyword arguments.  `obj` is the number of the new
route, `rep` the view. -/
def decorate (s : State) (k : Nat) (name : Str) (obj : Nat) (rep : Rep) : State :=
  match s.decos[k]? with
  | none => s
  | some d =>
    let endpoint := d.endpoint.getD name
    let s' := { s with decos := s.decos.set k ⟨some endpoint, none, d.methods⟩ }
    let view := Source.own (viewBindings endpoint d.methods rep)
    match d.route with
    | none => { s' with builder := { s.builder with bindings := s.builder.bindings ++ [view] } }
    | some rule =>
      if rule.head? ≠ some '/' then s'
      else
        { s' with
          world := { s.world with objs := fun i => if i = obj then ⟨{ rule := rule, endpoint := endpoint }, false⟩ else s.world.objs i }
          builder := { s.builder with
            routes := s.builder.routes ++ [.route obj]
            bindings := s.builder.bindings ++ [view] } }

/-- What a program does with the builder, with its dispatchers and with the applications built: a
request sorts the routes of the application.  Models application.py:138-227. -/
inductive Op where
  | addRoutes (fs : List Factory)
  | addConverters (cs : List (Str × ConvClass))
  | addBindings (ss : List Source)
  | addTo (d : Nat) (bs : List Binding)
  | addHandlers (hs : List Handler)
  | addMiddleware (m : Nat)
  | addAppMixins (ms : List Nat)
  | addRequestMixins (ms : List Nat)
  | expose (d : Deco)
  | decorate (k : Nat) (name : Str) (obj : Nat) (rep : Rep)
  | build (root : Str)
  | request (k : Nat)

/-- The effect of one call, application.py:138-227. -/
def step (e : Env) (s : State) : Op → State
  | .addRoutes fs => { s with builder := { s.builder with routes := s.builder.routes ++ fs } }
  | .addConverters cs => { s with builder := { s.builder with convs := update s.builder.convs cs } }
  | .addBindings ss => { s with builder := { s.builder with bindings := s.builder.bindings ++ ss } }
  | .addTo d bs => { s with disps := fun i => if i = d then (s.disps d).addAll bs else s.disps i }
  | .addHandlers hs => { s with builder := { s.builder with handlers := s.builder.handlers ++ hs } }
  | .addMiddleware m => { s with builder := { s.builder with middleware := s.builder.middleware ++ [m] } }
  | .addAppMixins ms => { s with builder := { s.builder with appBases := addBases s.builder.appBases ms } }
  | .addRequestMixins ms => { s with builder := { s.builder with reqBases := addBases s.builder.reqBases ms } }
  | .expose d => { s with decos := s.decos ++ [d] }
  | .decorate k name obj rep => decorate s k name obj rep
  | .build root => (build e s root).1
  | .request k =>
    match s.apps[k]? with
    | none => s
    | some a => { s with world := s.world.setMap a.map (s.world.maps a.map).update }

/-- The effect of a history, application.py:138-227. -/
def run (e : Env) (s : State) (ops : List Op) : State := ops.foldl (step e) s

end Verif.AppBuilder
