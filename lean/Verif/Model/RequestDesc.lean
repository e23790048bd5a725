import Verif.Model.Auth
import Verif.Model.CacheControl
import Verif.Model.Descriptors
import Verif.Model.Etag
import Verif.Model.Options
import Verif.Model.Range
/-!
The typed headers of a request (`/repo/verktyg/requests.py:463-655`): `ETagRequestMixin`, `AuthorizationMixin` and
`CommonRequestDescriptorsMixin`.  An environ is the list of its text entries.  `max_forwards` is modelled in
`Model/RequestUrl.lean`; `cached_property` keeps the value, which here is a function of the environ.
-/
namespace Verif.ReqDesc
open Verif Verif.CacheControl Verif.Date

/-- The text entries of an environ.  Used for requests.py:475, 484. -/
abbrev Env := List (Str × Str)

/-- `cache_control`, requests.py:470-478. -/
def cacheControl (environ : Env) : CC := CacheControl.parse ((Dict.get environ s%"HTTP_CACHE_CONTROL").getD [])

/-- The properties of `RequestCacheControl`, cache_control.py:301-304 and 372-375. -/
inductive Directive where
  | noCache | noStore | maxAge | noTransform | maxStale | minFresh | onlyIfCached
deriving DecidableEq

/-- The names of the directives, cache_control.py:301-304 and 372-375. -/
def Directive.key : Directive → Str
  | .noCache => s%"no-cache"
  | .noStore => s%"no-store"
  | .maxAge => s%"max-age"
  | .noTransform => s%"no-transform"
  | .maxStale => s%"max-stale"
  | .minFresh => s%"min-fresh"
  | .onlyIfCached => s%"only-if-cached"

/-- The kinds of the properties, cache_control.py:301-304 and 372-375. -/
def Directive.kind : Directive → Kind
  | .noCache => .plain (.str s%"*")
  | .noStore => .flag
  | .maxAge => .int (.int (-1))
  | .noTransform => .plain .none
  | .maxStale => .int (.str s%"*")
  | .minFresh => .int (.str s%"*")
  | .onlyIfCached => .flag

/-- Reading a property, cache_control.py:280. -/
def directive (d : CC) (p : Directive) : Val := getValue d p.key p.kind

/-- Assigning to a property of the request's cache control, cache_control.py:281 and 326-339 with the methods of
`ImmutableDictMixin`, datastructures.py:143-150: every branch calls `pop` or `__setitem__`, which raise. -/
def assignDirective (d : CC) (p : Directive) (v : Val) : CC × Except PyErr Unit :=
  match p.kind with
  | .flag => if v.truth then (d, .error .typeError) else (d, .error .typeError)
  | _ => match v with
    | .none => (d, .error .typeError)
    | .bool true => (d, .error .typeError)
    | _ => (d, .error .typeError)

/-- Deleting a property, cache_control.py:282 and 341-344 with datastructures.py:152-153. -/
def deleteDirective (d : CC) (p : Directive) : CC × Except PyErr Unit :=
  if Dict.has d p.key then (d, .error .typeError) else (d, .ok ())

/-- `if_match`, requests.py:480-486; `n` limits the iterations of the parser. -/
def ifMatch (n : Nat) (environ : Env) : Option Etag.ETags := Etag.parseEtags n (Dict.get environ s%"HTTP_IF_MATCH")

/-- `if_none_match`, requests.py:488-494; `n` limits the iterations of the parser. -/
def ifNoneMatch (n : Nat) (environ : Env) : Option Etag.ETags := Etag.parseEtags n (Dict.get environ s%"HTTP_IF_NONE_MATCH")

/-- `parse_date(environ.get(key))`; a missing value gives `None`.  Used for requests.py:496-504, 602-609. -/
def dateOf (environ : Env) (key : Str) : Except PyErr (Option DateTime) :=
  match Dict.get environ key with
  | none => .ok none
  | some v => parseDate v

/-- `if_modified_since`, requests.py:496-499. -/
def ifModifiedSince (environ : Env) : Except PyErr (Option DateTime) := dateOf environ s%"HTTP_IF_MODIFIED_SINCE"

/-- `if_unmodified_since`, requests.py:501-504. -/
def ifUnmodifiedSince (environ : Env) : Except PyErr (Option DateTime) := dateOf environ s%"HTTP_IF_UNMODIFIED_SINCE"

/-- `date`, requests.py:602-609. -/
def date (environ : Env) : Except PyErr (Option DateTime) := dateOf environ s%"HTTP_DATE"

/-- `if_range`, requests.py:506-512. -/
def ifRange (environ : Env) : Except PyErr Desc.IfRange := Desc.parseIfRange ((Dict.get environ s%"HTTP_IF_RANGE").getD [])

/-- `range`, requests.py:514-520. -/
def range (lower : Str → Str) (environ : Env) : Except PyErr (Option Range.Range) :=
  Range.parseRangeHeader lower ((Dict.get environ s%"HTTP_RANGE").getD [])

/-- `authorization`, requests.py:530-534. -/
def authorization (environ : Env) : Except PyErr (Option Auth.Authorization) :=
  Auth.parseAuthorization ((Dict.get environ s%"HTTP_AUTHORIZATION").getD [])

/-- `content_type`, requests.py:556-563. -/
def contentType (environ : Env) : Option Str := Dict.get environ s%"CONTENT_TYPE"

/-- `content_encoding`, requests.py:574-582. -/
def contentEncoding (environ : Env) : Option Str := Dict.get environ s%"HTTP_CONTENT_ENCODING"

/-- `content_md5`, requests.py:584-592. -/
def contentMd5 (environ : Env) : Option Str := Dict.get environ s%"HTTP_CONTENT_MD5"

/-- `referrer`, requests.py:594-601. -/
def referrer (environ : Env) : Option Str := Dict.get environ s%"HTTP_REFERER"

/-- `_parse_content_type`, requests.py:622-626. -/
def parsedType (environ : Env) : Except PyErr (Str × List (Str × Option Str)) :=
  Options.parseOptionsHeader ((Dict.get environ s%"CONTENT_TYPE").getD [])

/-- `mimetype`, requests.py:628-636. -/
def mimetype (lower : Str → Str) (environ : Env) : Except PyErr Str := (parsedType environ).map fun p => lower p.1

/-- `mimetype_params`, requests.py:638-645. -/
def mimetypeParams (environ : Env) : Except PyErr (List (Str × Option Str)) := (parsedType environ).map (·.2)

/-- `pragma`, requests.py:647-655. -/
def pragma (lower : Str → Str) (environ : Env) : HeaderSet.HS :=
  HeaderSet.init lower (Quote.parseListHeader ((Dict.get environ s%"HTTP_PRAGMA").getD []))

end Verif.ReqDesc
