import Verif.Model.CookieText
import Verif.Spec.TimedAgent
/-!
The cookies of the test client, `/repo/verktyg/test.py:159-182, 675-708`.
-/
namespace Verif.ClientJar
open Verif Verif.CookieText
open Verif.Spec

/-- The jar of a client: `http.cookiejar.CookieJar` knows a cookie by host, path and name.  The value is kept as it is
written in the header; the moment at which a cookie ends is kept too, but nothing in test.py looks at it.
Used for test.py:159-182. -/
abbrev Jar := List ((Str × Bytes × Bytes) × Bytes)

/-- `extract_wsgi` for one header `Set-Cookie`, test.py:174-182.  `CookieJar.extract_cookies` is part of the standard
library and is modelled as a user agent that follows RFC 6265: a cookie that ends now or has ended is removed, others
are kept.  Simplifications: for headers without the attribute Domain; `host` is what the jar makes of the host of the
request, `dflt` the path it takes where the header has none, and `esc` what it makes of a path (`escape_path`, and the
path of the request for an empty one).  RFC 6265 trims spaces and tabs at the ends of a name, the standard library
every white space of Latin-1, so a name whose UTF-8 begins or ends with the bytes 85 or A0 is not covered. -/
def extract (esc : Bytes → Bytes) (date : Bytes → Option Int) (now : Int) (host : Str) (dflt : Bytes) (jar : Jar) (header : Bytes) : Jar :=
  match Agent.pairOf header with
  | none => jar
  | some p =>
    let key := (host, esc ((Agent.attr b%"path" header).getD dflt), p.1)
    match Agent.ends date now header with
    | some e => if e ≤ now then Dict.del jar key else Dict.set jar key p.2
    | none => Dict.set jar key p.2

/-- A call of `Client.set_cookie` or `Client.delete_cookie`: the host, what is taken from the outside, and the
arguments.  Used for test.py:675-698. -/
inductive Op where
  | set (host : Str) (cfg : Cfg) (a : Args)
  | delete (host : Str) (cfg : Cfg) (key : Str) (path : Option Str)

/-- `Client.set_cookie`, test.py:675-691.  Simplification: the path and the server name are such that `create_environ`
does not raise; an error of `dump_cookie` leaves the jar as it is. -/
def setCookie (esc : Bytes → Bytes) (date : Bytes → Option Int) (jar : Jar) (host : Str) (cfg : Cfg) (a : Args) :
    Jar × Except PyErr Unit :=
  match dumpCookie cfg a with
  | .error e => (jar, .error e)
  | .ok s => (extract esc date cfg.now host b%"/" jar (headerBytes s), .ok ())

/-- `Client.delete_cookie`, test.py:693-698. -/
def deleteCookie (esc : Bytes → Bytes) (date : Bytes → Option Int) (jar : Jar) (host : Str) (cfg : Cfg) (key : Str)
    (path : Option Str) : Jar × Except PyErr Unit :=
  setCookie esc date jar host cfg { key, expires := some (.stamp 0), maxAge := some (.seconds 0), path }

/-- One call, test.py:675-698. -/
def step (esc : Bytes → Bytes) (date : Bytes → Option Int) (jar : Jar) : Op → Jar
  | .set host cfg a => (setCookie esc date jar host cfg a).1
  | .delete host cfg key path => (deleteCookie esc date jar host cfg key path).1

/-- All calls, test.py:675-698. -/
def run (esc : Bytes → Bytes) (date : Bytes → Option Int) (ops : List Op) : Jar := ops.foldl (step esc date) []

/-- Names and values as text, for the cookies in the order in which the jar goes through them.
Used for test.py:168-170. -/
def texts (jar : Jar) : List (Str × Str) := jar.map fun c => (Utf8.latin1 c.1.2.2, Utf8.latin1 c.2)

/-- The environ of the next request, whatever its host and path, test.py:164-172 and 700-703; `order` are the cookies
of the jar in the order in which the jar goes through them. -/
def request (order : Jar) (environ : List (Str × Str)) : List (Str × Str) := injectWsgi (texts order) environ

/-- What `extract_wsgi` makes of one header: the key, and the value unless the cookie has ended.
Used for test.py:174-182. -/
def cookieOf (esc : Bytes → Bytes) (date : Bytes → Option Int) (now : Int) (host : Str) (dflt : Bytes) (header : Bytes) :
    Option ((Str × Bytes × Bytes) × Option Bytes) :=
  (Agent.pairOf header).map fun p =>
    ((host, esc ((Agent.attr b%"path" header).getD dflt), p.1),
      match Agent.ends date now header with
      | some e => if e ≤ now then none else some p.2
      | none => some p.2)

/-- `extract_wsgi` for all headers `Set-Cookie` of a response, test.py:174-182.  `CookieJar.extract_cookies` first goes
through all headers (`make_cookies`), which removes those that have ended, and only then keeps the others.
Simplifications as for `extract`. -/
def extractAll (esc : Bytes → Bytes) (date : Bytes → Option Int) (now : Int) (host : Str) (dflt : Bytes) (jar : Jar)
    (headers : List Bytes) : Jar :=
  let cookies := headers.filterMap (cookieOf esc date now host dflt)
  let cleared := cookies.foldl (fun j c => match c.2 with | none => Dict.del j c.1 | some _ => j) jar
  cookies.foldl (fun j c => match c.2 with | none => j | some v => Dict.set j c.1 v) cleared

/-- The jar after a response with some headers, test.py:700-707 and 131-144. -/
def answer (lower : Str → Str) (esc : Bytes → Bytes) (date : Bytes → Option Int) (now : Int) (host : Str) (dflt : Bytes)
    (jar : Jar) (h : Headers.HList) : Jar :=
  extractAll esc date now host dflt jar ((Headers.getlist lower h s%"Set-Cookie").map headerBytes)

end Verif.ClientJar
