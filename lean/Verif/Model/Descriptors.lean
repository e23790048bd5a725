import Verif.Model.Response
import Verif.Model.Etag
import Verif.Model.Date
import Verif.Model.HeaderSet
import Verif.Model.Range
import Verif.Model.Options
import Verif.Model.Auth
import Verif.Model.Cookie
/-!
Model of the header properties of responses: `header_property` (`/repo/verktyg/utils.py:70-108`),
`get_content_type` (utils.py:117-136), the mixins of `/repo/verktyg/responses.py:400-445, 647-773,
830-978, 981-994` and `If-Range` (`/repo/verktyg/http/cache_control.py:22-60`).

Objects handed out by a property (sets, ranges, dicts) are modelled by a pair: the state of the
object and the headers of the response it writes to.
-/
namespace Verif.Desc
open Verif Verif.Headers Verif.Date

/-! ### `header_property` -/

/-- A `header_property`, utils.py:70-83.  `load` and `dump` are `load_func` and `dump_func`; a
`load` that returns `None` gives `.ok none`. -/
structure HeaderProp (α : Type) where
  name : Str
  default : Option α
  load : Str → Except PyErr (Option α)
  dump : α → Str
  readOnly : Bool

/-- `except (ValueError, TypeError)`; `UnicodeError` is a `ValueError`.  Used for utils.py:85-96. -/
def caught : PyErr → Bool
  | .valueError | .typeError | .unicodeError => true
  | _ => false

variable (lower : Str → Str)

/-- `__get__`, utils.py:85-96. -/
def HeaderProp.get {α} (p : HeaderProp α) (h : HList) : Except PyErr (Option α) :=
  match getItem lower h p.name with
  | none => .ok p.default
  | some v =>
    match p.load v with
    | .ok x => .ok x
    | .error e => if caught e then .ok p.default else .error e

/-- `__set__`, utils.py:98-103. -/
def HeaderProp.set {α} (p : HeaderProp α) (h : HList) (v : α) : HList × Except PyErr Unit :=
  if p.readOnly then (h, .error .attributeError) else Headers.set lower h p.name (p.dump v) []

/-- `__delete__`, utils.py:105-108.  `pop(name, None)` is `popKey` with a default. -/
def HeaderProp.delete {α} (p : HeaderProp α) (h : HList) : HList × Except PyErr Unit :=
  if p.readOnly then (h, .error .attributeError) else ((popKey lower h p.name (some [])).1, .ok ())

/-- `header_property(name)` without conversion.  `location`, `content_type`, `content_location`,
`content_encoding`, `content_md5` (responses.py:860-898) and `accept_ranges` (739). -/
def textProp (name : Str) : HeaderProp Str := ⟨name, none, fun v => .ok (some v), id, false⟩

/-- `content_length`, responses.py:876. -/
def contentLength : HeaderProp Int :=
  ⟨s%"Content-Length", none, fun v => (Py.intOf v).map some, Py.intStr, false⟩

/-- `date`, `expires`, `last_modified`, responses.py:899-911.  Simplification: the value assigned
is a `datetime` in UTC with whole seconds. -/
def dateProp (name : Str) : HeaderProp DateTime := ⟨name, none, parseDate, httpDate, false⟩

/-- `age`, responses.py:864: the same functions as for dates. -/
def age : HeaderProp DateTime := dateProp s%"Age"

/-! ### `mimetype` -/

/-- `get_content_type(mimetype, charset)`, utils.py:117-136. -/
def getContentType (mimetype charset : Str) : Str :=
  if s%"text/".isPrefixOf mimetype || mimetype == s%"application/xml" ||
      (s%"application/".isPrefixOf mimetype && s%"+xml".isSuffixOf mimetype) then
    mimetype ++ s%"; charset=" ++ charset
  else mimetype

/-- `_get_mimetype`, responses.py:837-840. -/
def getMimetype (h : HList) : Option Str :=
  match getItem lower h s%"content-type" with
  | none => none
  | some ct => if ct = [] then none else some (Py.strip (ct.takeWhile (· ≠ ';')))

/-- `_set_mimetype`, responses.py:842-843. -/
def setMimetype (charset : Str) (h : HList) (value : Str) : HList × Except PyErr Unit :=
  Headers.set lower h s%"Content-Type" (getContentType value charset) []

/-- The dict of `mimetype_params`, responses.py:850-851. -/
def mimetypeParams (h : HList) : Except PyErr (List (Str × Option Str)) :=
  match Options.parseOptionsHeader ((getItem lower h s%"content-type").getD []) with
  | .error e => .error e
  | .ok (_, d) => .ok d

/-- `on_update` of `mimetype_params`, responses.py:846-849. -/
def paramsUpdate (h : HList) (d : List (Str × Option Str)) : HList × Except PyErr Unit :=
  Headers.set lower h s%"Content-Type" (Quote.dumpOptionsHeader (getMimetype lower h) d) []

/-- `response.mimetype_params[k] = v`, responses.py:845-851. -/
def setParam (h : HList) (k v : Str) : HList × Except PyErr Unit :=
  match mimetypeParams lower h with
  | .error e => (h, .error e)
  | .ok d => paramsUpdate lower h (Quote.dictSet d k (some v))

/-- `del response.mimetype_params[k]`, responses.py:845-851. -/
def delParam (h : HList) (k : Str) : HList × Except PyErr Unit :=
  match mimetypeParams lower h with
  | .error e => (h, .error e)
  | .ok d =>
    if d.any (fun p => decide (p.1 = k)) then
      paramsUpdate lower h (d.filter (fun p => decide (p.1 ≠ k)))
    else (h, .error .keyError)

/-! ### entity tags -/

/-- `set_etag(etag, weak)`, responses.py:720-722. -/
def setEtag (h : HList) (etag : Str) (weak : Bool) : HList × Except PyErr Unit :=
  match Etag.quoteEtag etag weak with
  | .error e => (h, .error e)
  | .ok q => Headers.set lower h s%"ETag" q []

/-- `get_etag()`, responses.py:724-728. -/
def getEtag (h : HList) : Option Str × Option Bool :=
  Etag.unquoteEtag ((getItem lower h s%"ETag").getD [])

/-- `add_etag(overwrite, weak)`, responses.py:715-718; `md5` is `generate_etag`
(cache_control.py:578-580). -/
def addEtag (cfg : Response.Cfg) (md5 : Bytes → Str) (r : Response.Resp) (overwrite weak : Bool) :
    Response.Resp × Except PyErr Unit :=
  if overwrite || !contains cfg.lower r.headers s%"etag" then
    match Response.getData cfg r with
    | (r', .error e) => (r', .error e)
    | (r', .ok b) =>
      let p := setEtag cfg.lower r'.headers (md5 b) weak
      ({ r' with headers := p.1 }, p.2)
  else (r, .ok ())

/-! ### `make_conditional` -/

/-- A header parsed with `parse_date`, in microseconds.  Used for cache_control.py:606-614. -/
def dateMicros (v : Option Str) : Except PyErr (Option Int) :=
  match v with
  | none => .ok none
  | some v =>
    match parseDate v with
    | .error e => .error e
    | .ok none => .ok none
    | .ok (some t) => .ok (some (t.total * 1000000))

/-- The automatic length of `make_conditional`, responses.py:702-708. -/
def conditionalLength (cfg : Response.Cfg) (r : Response.Resp) : Response.Resp × Except PyErr Unit :=
  if cfg.autoLength && !contains cfg.lower r.headers s%"content-length" then
    match Response.calcLength cfg r with
    | (r', .error e) => (r', .error e)
    | (r', .ok none) => (r', .ok ())
    | (r', .ok (some n)) => ({ r' with headers := Response.setLength cfg r'.headers n }, .ok ())
  else (r, .ok ())

/-- The date of `make_conditional`, responses.py:700-701; `now` is the current time. -/
def conditionalDate (cfg : Response.Cfg) (now : DateTime) (r : Response.Resp) : Response.Resp :=
  if contains cfg.lower r.headers s%"date" then r
  else { r with headers := (Headers.set cfg.lower r.headers s%"Date" (httpDate now) []).1 }

/-- `make_conditional(environ)`, responses.py:674-713.  `inm` and `ims` are the If-None-Match and
If-Modified-Since headers of the request.  `none` means that the loop of `parse_etags` has not
ended after `fuel` iterations. -/
def makeConditional (cfg : Response.Cfg) (now : DateTime) (fuel : Nat) (method : Str)
    (inm ims : Option Str) (r : Response.Resp) : Option (Response.Resp × Except PyErr Unit) :=
  if method ≠ s%"GET" ∧ method ≠ s%"HEAD" then some (r, .ok ())
  else
    match conditionalLength cfg (conditionalDate cfg now r) with
    | (r', .error e) => some (r', .error e)
    | (r', .ok _) =>
      match dateMicros ims, dateMicros (getItem cfg.lower r'.headers s%"last-modified") with
      | .error e, _ => some (r', .error e)
      | _, .error e => some (r', .error e)
      | .ok ims, .ok lm =>
        match Etag.isResourceModified (D := Unit) (fun _ => []) fuel method inm ims
            (getItem cfg.lower r'.headers s%"etag") none lm with
        | .error e => some (r', .error e)
        | .ok none => none
        | .ok (some true) => some (r', .ok ())
        | .ok (some false) => some (Response.setStatusCode cfg r' 304, .ok ())

/-! ### set-valued headers -/

/-- `parse_set_header(headers.get(name))`, responses.py:946 and basic.py:1113-1142. -/
def setView (h : HList) (name : Str) : HeaderSet.HS :=
  HeaderSet.init lower (Quote.parseListHeader ((getItem lower h name).getD []))

/-- `on_update` of the set-valued headers, responses.py:941-945; the truth of a `HeaderSet` is
its length. -/
def setUpdate (h : HList) (name : Str) (s : HeaderSet.HS) : HList × Except PyErr Unit :=
  if HeaderSet.len s = 0 then
    (if contains lower h name then delKey lower h name else h, .ok ())
  else Headers.set lower h name (HeaderSet.toHeader s) []

/-- A call on a set obtained from `vary`, `content_language` or `allow`, together with the
headers it writes to, responses.py:939-955. -/
def setCall (name : Str) (st : HList × HeaderSet.HS) (op : HeaderSet.Op) : HList × HeaderSet.HS :=
  (if HeaderSet.notifies lower st.2 op then
      (setUpdate lower st.1 name (HeaderSet.step lower st.2 op)).1
    else st.1, HeaderSet.step lower st.2 op)

/-- What may be assigned to a set-valued property: text or an iterable of names.
Used for responses.py:948-954. -/
inductive SetVal where
  | text (s : Str)
  | names (xs : List Str)

/-- Assignment, responses.py:948-954. -/
def assignSet (h : HList) (name : Str) : SetVal → HList × Except PyErr Unit
  | .text s => if s = [] then (delKey lower h name, .ok ()) else Headers.set lower h name s []
  | .names xs =>
    if xs = [] then (delKey lower h name, .ok ())
    else Headers.set lower h name (Quote.dumpHeaderList xs) []

/-! ### `content_range` -/

/-- `on_update` of `content_range`, responses.py:746-750. -/
def rangeUpdate (h : HList) (c : Range.ContentRange) : HList × Except PyErr Unit :=
  match c.units with
  | none => (delKey lower h s%"content-range", .ok ())
  | some _ =>
    match c.toHeader with
    | none => (h, .error .typeError)
    | some t => Headers.set lower h s%"Content-Range" t []

/-- `_get_content_range`, responses.py:745-759.  The constructor of `ContentRange` calls
`on_update` (cache_control.py:161-165, 195-196), so that reading writes the header. -/
def readRange (h : HList) : HList × Except PyErr Range.ContentRange :=
  let empty : Range.ContentRange := ⟨none, none, none, none⟩
  match getItem lower h s%"content-range" with
  | none => ((rangeUpdate lower h empty).1, .ok empty)
  | some v =>
    match Range.parseContentRangeHeader v with
    | .error e => (h, .error e)
    | .ok none => ((rangeUpdate lower h empty).1, .ok empty)
    | .ok (some c) =>
      match rangeUpdate lower h c with
      | (h', .error e) => (h', .error e)
      | (h', .ok _) => (h', .ok c)

/-- A call on the range of a response, cache_control.py:167-202: `set` checks its arguments, and
every call that is accepted writes the header. -/
def rangeCall (h : HList) (c : Range.ContentRange) (op : Range.Op) :
    HList × Range.ContentRange × Except PyErr Unit :=
  let c' := Range.ContentRange.step c op
  match op with
  | .set a b l u =>
    match Range.ContentRange.mk? u a b l with
    | .error e => (h, c, .error e)
    | .ok _ => ((rangeUpdate lower h c').1, c', (rangeUpdate lower h c').2)
  | _ => ((rangeUpdate lower h c').1, c', (rangeUpdate lower h c').2)

/-! ### `retry_after` -/

/-- What may be assigned to `retry_after`: `None`, a date or a number.
Used for responses.py:921-930. -/
inductive Retry where
  | none
  | date (t : DateTime)
  | seconds (n : Int)

/-- `_set_retry_after`, responses.py:921-930. -/
def setRetryAfter (h : HList) : Retry → HList × Except PyErr Unit
  | .none => (if contains lower h s%"retry-after" then delKey lower h s%"retry-after" else h, .ok ())
  | .date t => Headers.set lower h s%"Retry-After" (httpDate t) []
  | .seconds n => Headers.set lower h s%"Retry-After" (Py.intStr n) []

/-- `_get_retry_after`, responses.py:913-919; `now` is `datetime.utcnow()`, without microseconds.
`datetime + timedelta` raises `OverflowError` beyond the year 9999. -/
def getRetryAfter (now : DateTime) (h : HList) : Except PyErr (Option DateTime) :=
  match getItem lower h s%"retry-after" with
  | none => .ok none
  | some v =>
    if v ≠ [] ∧ v.all Range.isDigit then
      match Py.intOf v with
      | .error e => .error e
      | .ok n =>
        match ofTotal (now.total + n) with
        | none => .error .overflowError
        | some t => .ok (some t)
    else parseDate v

/-! ### cookies -/

/-- `set_cookie`, responses.py:400-431, on encoded arguments. -/
def setCookie (h : HList) (key value : Bytes) (a : Cookie.Attrs) : HList × Except PyErr Unit :=
  Headers.add h s%"Set-Cookie" (Auth.bytesToWsgi (Cookie.dumpCookie key value a)) []

/-- `cookie_date(0)`, cookies.py:140-155, as used by `delete_cookie`. -/
def epochCookieDate : Bytes := b%"Thu, 01-Jan-1970 00:00:00 GMT"

/-- `delete_cookie(key, path, domain)`, responses.py:433-445. -/
def deleteCookie (h : HList) (key : Bytes) (path domain : Option Bytes) : HList × Except PyErr Unit :=
  setCookie h key [] ⟨domain, some epochCookieDate, some b%"0", false, false, path⟩

/-! ### `www_authenticate` -/

/-- `response.www_authenticate`, responses.py:993-994. -/
def wwwView (h : HList) : Auth.WWW := Auth.parseWWW lower ((getItem lower h s%"www-authenticate").getD [])

/-- `on_update` of `www_authenticate`, responses.py:988-992; `title` is `str.title`. -/
def wwwUpdate (title : Str → Str) (h : HList) (w : Auth.WWW) : HList × Except PyErr Unit :=
  if w = [] then
    (if contains lower h s%"www-authenticate" then delKey lower h s%"www-authenticate" else h, .ok ())
  else Headers.set lower h s%"WWW-Authenticate" (Auth.wwwToHeader title w) []

/-! ### `If-Range` -/

/-- `IfRange`, cache_control.py:22-33. -/
structure IfRange where
  etag : Option Str
  date : Option DateTime
deriving DecidableEq

/-- `IfRange.to_header`, cache_control.py:35-41. -/
def IfRange.toHeader (r : IfRange) : Except PyErr Str :=
  match r.date with
  | some t => .ok (httpDate t)
  | none =>
    match r.etag with
    | some e => Etag.quoteEtag e false
    | none => .ok []

/-- `parse_if_range_header(value)`, cache_control.py:50-60. -/
def parseIfRange (value : Str) : Except PyErr IfRange :=
  if value = [] then .ok ⟨none, none⟩
  else
    match parseDate value with
    | .error e => .error e
    | .ok (some t) => .ok ⟨none, some t⟩
    | .ok none => .ok ⟨(Etag.unquoteEtag value).1, none⟩

end Verif.Desc
