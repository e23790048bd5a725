import Verif.Model.EnvironBuilder
import Verif.Model.Wsgi
import Verif.PyMore
/-!
Model of `Client.open` and the redirects it follows, /repo/verktyg/test.py:636-818.  The application,
together with the cookie jar, is a function from its state and an environ to a new state and a
response; the loop is run with fuel.
-/
namespace Verif.Client
open Verif Verif.Py Verif.ReqUrl Verif.Iri Verif.Builder

/-- What the interpreter supplies to the client.  Used for test.py:715-716, 743. -/
structure Cfg where
  idna : Str → Except PyErr Bytes
  upper : Str → Str
  lower : Str → Str
  usesNetloc : Str → Bool
  isAlpha : Char → Bool
  guess : Str → Option Str
  boundary : Str

/-- What `run_wsgi_app` returns: the body (whatever it is), the status line and the headers.
Used for test.py:793. -/
structure Resp (β : Type) where
  status : Str
  headers : Headers.HList
  body : β

/-- `s.split(None, 1)[0]`: the first word.  Used for test.py:731, 798. -/
def firstWord (s : Str) : Except PyErr Str :=
  match lstrip s with
  | [] => .error .indexError
  | c :: cs => .ok ((c :: cs).takeWhile fun x => !isSpace x)

/-- The status code of a status line, test.py:798. -/
def statusCode (s : Str) : Except PyErr Int :=
  match firstWord s with
  | .error e => .error e
  | .ok w => intOf w

/-- `open` with path, base, query and method only, test.py:786-791: the environ that is made. -/
def makeEnviron (cfg : Cfg) (path base qs method : Str) : Except PyErr Environ :=
  match init cfg.lower (iriToUri cfg.idna cfg.lower cfg.usesNetloc) (urlFix cfg.idna cfg.lower cfg.usesNetloc cfg.isAlpha) path (some base)
      (.text qs) method [] none none none .missing [] [] with
  | .error e => .error e
  | .ok b => getEnviron cfg.upper cfg.lower cfg.guess cfg.boundary b

/-- The last part of `text.rsplit(':', 1)[0]`, split at the dots.  Used for test.py:719. -/
def realName (host : Str) : List Str :=
  splitOn '.' (match rsplit1 ':' host with
    | some (a, _) => a
    | none => host)

/-- The environ made by `resolve_redirect`, test.py:715-747.  `list.endswith` does not exist, so
with `allow_subdomain_redirects` there is an `AttributeError`. -/
def redirectEnviron (cfg : Cfg) (subdomains : Bool) (location : Str) (code : Int) (environ : List (Str × Str)) :
    Except PyErr Environ :=
  match urlsplit cfg.lower location with
  | .error e => .error e
  | .ok u =>
    let base := rstripP (· = '/') (urlunsplit cfg.usesNetloc ⟨u.scheme, u.netloc, [], [], []⟩) ++ s%"/"
    match Wsgi.hostOf environ with
    | .error e => .error e
    | .ok host =>
      if subdomains then .error .attributeError
      else if splitOn '.' (split1 ':' u.netloc).1 = realName host then
        match (if code = 307 then Dict.get environ s%"REQUEST_METHOD" else some s%"GET") with
        | none => .error .keyError
        | some method => makeEnviron cfg u.path base u.query method
      else .error .runtimeError

/-- How `open` ends; `more` when the fuel is used up.  Used for test.py:793-818. -/
inductive Outcome (β : Type) where
  | done (environ : Environ) (response : Resp β)
  | error (e : PyErr)
  | loop
  | more

/-- The codes that are followed, test.py:800. -/
def codes : List Int := [301, 302, 303, 305, 307]

/-- The loop of `open`, test.py:795-812. -/
def follow {σ β : Type} (cfg : Cfg) (subdomains : Bool) (serve : σ → Environ → σ × Except PyErr (Resp β)) :
    Nat → List (Str × Int) → σ → Environ → Resp β → σ × Outcome β
  | 0, _, st, _, _ => (st, .more)
  | fuel + 1, chain, st, environ, response =>
    match statusCode response.status with
    | .error e => (st, .error e)
    | .ok code =>
      if code ∉ codes then (st, .done environ response)
      else match Headers.getItem cfg.lower response.headers s%"location" with
        | none => (st, .error .keyError)
        | some location =>
          if (location, code) ∈ chain then (st, .loop)
          else match redirectEnviron cfg subdomains location code environ.vars with
            | .error e => (st, .error e)
            | .ok environ' => match serve st environ' with
              | (st', .error e) => (st', .error e)
              | (st', .ok response') => follow cfg subdomains serve fuel (chain ++ [(location, code)]) st' environ' response'

/-- `open` once there is an environ, test.py:793-818: without `follow_redirects` the status line is
read all the same. -/
def openEnviron {σ β : Type} (cfg : Cfg) (subdomains followRedirects : Bool) (serve : σ → Environ → σ × Except PyErr (Resp β))
    (fuel : Nat) (st : σ) (environ : Environ) : σ × Outcome β :=
  match serve st environ with
  | (st, .error e) => (st, .error e)
  | (st, .ok response) =>
    if followRedirects then follow cfg subdomains serve fuel [] st environ response
    else match statusCode response.status with
      | .error e => (st, .error e)
      | .ok _ => (st, .done environ response)

end Verif.Client
