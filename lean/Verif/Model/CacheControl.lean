import Verif.Model.Quote
import Verif.Model.Headers
import Verif.Dict
/-!
Model of cache control objects, `/repo/verktyg/http/cache_control.py:276-421`, and of the
property `cache_control` of responses, `/repo/verktyg/responses.py:659-673`.
-/
namespace Verif.CacheControl
open Verif Verif.Quote Verif.Headers

/-- The Python values that are assigned to the properties.  Used for cache_control.py:276-284. -/
inductive Val where
  | none
  | bool (b : Bool)
  | int (i : Int)
  | str (s : Str)
deriving DecidableEq, Repr

/-- `bool(value)`.  Used for cache_control.py:326-339. -/
def Val.truth : Val → Bool
  | .none => false
  | .bool b => b
  | .int i => i ≠ 0
  | .str s => s ≠ []

/-- `str(value)`.  Used for cache_control.py:346-348. -/
def Val.text : Val → Str
  | .none => s%"None"
  | .bool true => s%"True"
  | .bool false => s%"False"
  | .int i => Py.intStr i
  | .str s => s

/-- `int(value)`; `none` where it raises `ValueError`.  `int(None)` does not occur.
Used for cache_control.py:311-324. -/
def Val.toInt : Val → Option Int
  | .none => Option.none
  | .bool b => some (if b then 1 else 0)
  | .int i => some i
  | .str s => (Py.intOf s).toOption

/-- The arguments `empty` and `type` of `cache_property`, cache_control.py:276-284. -/
inductive Kind where
  | flag
  | plain (empty : Val)
  | int (empty : Val)

/-- The stored directives in order, cache_control.py:287-309. -/
abbrev CC := List (Str × Val)

/-- `_get_cache_value`, cache_control.py:311-324. -/
def getValue (d : CC) (key : Str) : Kind → Val
  | .flag => .bool (Dict.has d key)
  | .plain empty =>
    match Dict.get d key with
    | Option.none => .none
    | some .none => empty
    | some v => v
  | .int empty =>
    match Dict.get d key with
    | Option.none => .none
    | some .none => empty
    | some v =>
      match v.toInt with
      | some i => .int i
      | Option.none => v

/-- `_set_cache_value`, cache_control.py:326-339.  The flag tells whether `on_update` is called. -/
def setValue (d : CC) (key : Str) (value : Val) : Kind → Except PyErr (CC × Bool)
  | .flag =>
    if value.truth then .ok (Dict.set d key .none, true)
    else .ok (Dict.del d key, Dict.has d key)
  | _ =>
    match value with
    | .none => if Dict.has d key then .ok (Dict.del d key, true) else .error .keyError
    | .bool true => .ok (Dict.set d key .none, true)
    | v => .ok (Dict.set d key v, true)

/-- `_del_cache_value`, cache_control.py:341-344. -/
def delValue (d : CC) (key : Str) : CC × Bool :=
  if Dict.has d key then (Dict.del d key, true) else (d, false)

/-- The value given to `dump_header`; `None` is written as the bare directive.
Used for cache_control.py:346-348. -/
def Val.field : Val → Option Str
  | .none => Option.none
  | v => some v.text

/-- `to_header`, cache_control.py:346-348, with `dump_header`, basic.py:571-580. -/
def toHeader (d : CC) : Str :=
  dumpHeaderDict (d.map fun kv => (kv.1, kv.2.field))

/-- Values delivered by `parse_dict_header`.  Used for cache_control.py:401-421. -/
def ofParsed : Option Str → Val
  | Option.none => .none
  | some s => .str s

/-- `parse_cache_control_header(value)`, cache_control.py:401-421; a missing header is the empty text. -/
def parse (value : Str) : CC :=
  if value = [] then [] else (parseDictHeader value).map fun kv => (kv.1, ofParsed kv.2)

/-- The properties of `ResponseCacheControl`, cache_control.py:301-304 and 390-394. -/
inductive Directive where
  | noCache | noStore | maxAge | noTransform | pub | priv | mustRevalidate | proxyRevalidate | sMaxage
deriving DecidableEq

/-- The names of the directives, cache_control.py:301-304 and 390-394. -/
def Directive.key : Directive → Str
  | .noCache => s%"no-cache"
  | .noStore => s%"no-store"
  | .maxAge => s%"max-age"
  | .noTransform => s%"no-transform"
  | .pub => s%"public"
  | .priv => s%"private"
  | .mustRevalidate => s%"must-revalidate"
  | .proxyRevalidate => s%"proxy-revalidate"
  | .sMaxage => s%"s-maxage"

/-- The kinds of the properties, cache_control.py:301-304 and 390-394. -/
def Directive.kind : Directive → Kind
  | .noCache => .plain (.str s%"*")
  | .noStore => .flag
  | .maxAge => .int (.int (-1))
  | .noTransform => .plain .none
  | .pub => .flag
  | .priv => .plain (.str s%"*")
  | .mustRevalidate => .flag
  | .proxyRevalidate => .flag
  | .sMaxage => .plain .none

/-- Reading a property, cache_control.py:280. -/
def get (d : CC) (p : Directive) : Val := getValue d p.key p.kind
/-- Assigning to a property, cache_control.py:281. -/
def set (d : CC) (p : Directive) (v : Val) : Except PyErr (CC × Bool) := setValue d p.key v p.kind

/-- `response.cache_control`, responses.py:671-673. -/
def ofHeaders (lower : Str → Str) (h : HList) : CC :=
  match getItem lower h s%"cache-control" with
  | Option.none => []
  | some v => parse v

/-- `on_update`, responses.py:665-669. -/
def onUpdate (lower : Str → Str) (h : HList) (d : CC) : HList × Except PyErr Unit :=
  if d = [] then
    (if Headers.contains lower h s%"cache-control" then delKey lower h s%"cache-control" else h, .ok ())
  else Headers.set lower h s%"Cache-Control" (toHeader d) []

/-- `response.cache_control.p = v`, responses.py:659-673 and cache_control.py:281. -/
def assign (lower : Str → Str) (h : HList) (p : Directive) (v : Val) : HList × Except PyErr Unit :=
  match set (ofHeaders lower h) p v with
  | .error e => (h, .error e)
  | .ok (_, false) => (h, .ok ())
  | .ok (d, true) => onUpdate lower h d

/-- Reading `response.cache_control.p`, responses.py:671-673 and cache_control.py:280. -/
def read (lower : Str → Str) (h : HList) (p : Directive) : Val := get (ofHeaders lower h) p

end Verif.CacheControl
