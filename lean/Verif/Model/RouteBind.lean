import Verif.Model.Routing
import Verif.Model.RequestUrl
/-!
Model of `/repo/verktyg/routing.py`: binding a map to a server and to a request.
-/
namespace Verif.Routing
open Verif

/-- `s.encode('idna').decode('ascii')`, used for routing.py:1141 and 1145.  Names in ASCII are checked for
labels that are empty or longer than 63 characters and left alone; `other` is the codec for the
other names. -/
def idnaName (other : Str → Except PyErr Str) (s : Str) : Except PyErr Str :=
  if s = [] then .ok []
  else if s.all (fun c => decide (c.toNat < 128)) then
    let labels := Py.splitOn '.' s
    if labels.dropLast.all (fun l => decide (0 < l.length ∧ l.length < 64)) ∧ (labels.getLast?.getD []).length < 64 then .ok s
    else .error .unicodeError
  else other s

/-- A `MapAdapter` with the path and the query it was bound with, routing.py:1256-1270. -/
structure BoundMap where
  adapter : Adapter
  pathInfo : Option Str
  query : Option Str

/-- `URLMap.bind`, routing.py:1111-1156.  `lower` is `str.lower`.  Simplifications: the name of the server is
not `None`, and the subdomain `None` of a map that matches hosts is the empty text (they differ
only for the empty name of a server). -/
def bind (cfg : Config) (lower : Str → Str) (other : Str → Except PyErr Str) (server : Str)
    (script subdomain : Option Str) (scheme : Str) (pathInfo query : Option Str) : Except PyErr BoundMap :=
  if cfg.hostMatching ∧ subdomain.isSome then .error .runtimeError
  else
    match (if cfg.hostMatching then .ok [] else idnaName other (lower (subdomain.getD cfg.defaultSubdomain))) with
    | .error e => .error e
    | .ok sub =>
      match idnaName other (lower server) with
      | .error e => .error e
      | .ok server =>
        if sub ≠ [] ∧ server = [] then .error .typeError
        else .ok ⟨Adapter.mk' server (script.getD s%"/") sub scheme, pathInfo, query⟩

/-- The port belongs to the scheme.  Used for routing.py:1193-1197 and 1204-1208. -/
def defaultPort (scheme port : Str) : Bool :=
  (scheme, port) == (s%"https", s%"443") || (scheme, port) == (s%"http", s%"80")

/-- The host of a request where no name of the server was given, routing.py:1188-1197. -/
def hostHint (env : List (Str × Str)) : Except PyErr Str :=
  match Dict.get env s%"HTTP_HOST" with
  | some h => .ok h
  | none =>
    match Dict.get env s%"SERVER_NAME", Dict.get env s%"wsgi.url_scheme", Dict.get env s%"SERVER_PORT" with
    | some n, some s, some p => .ok (if defaultPort s p then n else n ++ s%":" ++ p)
    | _, _, _ => .error .keyError

/-- The host of a request where the name of the server was given, routing.py:1200-1209. -/
def hostFull (env : List (Str × Str)) : Except PyErr Str :=
  match Dict.get env s%"HTTP_HOST" with
  | some h => .ok h
  | none =>
    match Dict.get env s%"wsgi.url_scheme", Dict.get env s%"SERVER_PORT" with
    | some s, some p =>
      match Dict.get env s%"SERVER_NAME" with
      | some n => .ok (if defaultPort s p then n else n ++ s%":" ++ p)
      | none => .error (if defaultPort s p then .attributeError else .typeError)
    | _, _ => .error .keyError

/-- The subdomain of a host, both in lower case, routing.py:1210-1221. -/
def subdomainIn (host server : Str) : Str :=
  let cur := Py.splitOn '.' host
  let real := Py.splitOn '.' server
  let n := cur.length - real.length
  if cur.drop n ≠ real then s%"<invalid>"
  else Py.join s%"." ((cur.take n).filter (· ≠ []))

/-- `_get_wsgi_string`, routing.py:1223-1226. -/
def wsgiString (env : List (Str × Str)) (name : Str) : Except PyErr (Option Str) :=
  match Dict.get env name with
  | none => .ok none
  | some v => (ReqUrl.decodingDance v).map some

/-- The end of `bind_to_environ`, routing.py:1223-1235. -/
def bindStrings (cfg : Config) (lower : Str → Str) (other : Str → Except PyErr Str) (env : List (Str × Str))
    (server : Str) (subdomain : Option Str) : Except PyErr BoundMap :=
  match wsgiString env s%"SCRIPT_NAME" with
  | .error e => .error e
  | .ok script =>
    match wsgiString env s%"PATH_INFO" with
    | .error e => .error e
    | .ok path =>
      match wsgiString env s%"QUERY_STRING" with
      | .error e => .error e
      | .ok query =>
        match Dict.get env s%"wsgi.url_scheme" with
        | none => .error .keyError
        | some scheme => bind cfg lower other server script subdomain scheme path query

/-- `URLMap.bind_to_environ`, routing.py:1158-1235. -/
def bindToEnviron (cfg : Config) (lower : Str → Str) (other : Str → Except PyErr Str) (env : List (Str × Str))
    (server subdomain : Option Str) : Except PyErr BoundMap :=
  match server with
  | none =>
    match hostHint env with
    | .error e => .error e
    | .ok h => bindStrings cfg lower other env h subdomain
  | some s =>
    if subdomain.isNone ∧ cfg.hostMatching = false then
      match hostFull env with
      | .error e => .error e
      | .ok h => bindStrings cfg lower other env (lower s) (some (subdomainIn (lower h) (lower s)))
    else bindStrings cfg lower other env s subdomain

/-- `MapAdapter.match` with its defaults, routing.py:1336-1345: where there is no path `None` has
no attribute `lstrip`. -/
def BoundMap.match_ (m : URLMap) (x : BoundMap) (pathInfo query : Option Str) : Except PyErr Answer :=
  match pathInfo.or x.pathInfo with
  | none => .error .attributeError
  | some p => Routing.match_ m x.adapter p ((query.or x.query).getD [])

end Verif.Routing
