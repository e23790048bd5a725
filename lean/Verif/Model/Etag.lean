import Verif.Py
import Verif.Regex
/-!
Model of entity tags: `/repo/verktyg/http/cache_control.py:19, 424-623`.
-/
namespace Verif.Etag
open Verif Verif.Re

/-- `quote_etag(etag, weak)`, cache_control.py:424-437. -/
def quoteEtag (etag : Str) (weak : Bool) : Except PyErr Str :=
  if etag.contains '"' then .error .valueError
  else
    let etag := s%"\"" ++ etag ++ s%"\""
    .ok (if weak then s%"w/" ++ etag else etag)

/-- `unquote_etag(etag)`, cache_control.py:440-462. -/
def unquoteEtag (etag : Str) : Option Str × Option Bool :=
  if etag = [] then (none, none)
  else
    let etag := Py.strip etag
    let weak := etag.take 2 = s%"w/" ∨ etag.take 2 = s%"W/"
    let etag := if weak then etag.drop 2 else etag
    let etag :=
      if etag.head? = some '"' ∧ etag.getLast? = some '"' then Py.slice1m1 etag else etag
    (some etag, some (decide weak))

/-- `ETags`, cache_control.py:465-473.  The frozensets are lists (any iteration order);
`None` can be a member (see `parse_etags`). -/
structure ETags where
  strong : List (Option Str)
  weak : List (Option Str)
  star : Bool
  deriving DecidableEq, Repr

/-- `ETags.__init__`, cache_control.py:470-473. -/
def mk (strong weak : List (Option Str)) (star : Bool) : ETags :=
  ⟨if star then [] else strong, weak, star⟩

/-- `ETags.as_set`, cache_control.py:475-481. -/
def ETags.asSet (e : ETags) (includeWeak : Bool) : List (Option Str) :=
  if includeWeak then e.strong ++ e.weak else e.strong

/-- `ETags.is_weak`, cache_control.py:483-485. -/
def ETags.isWeak (e : ETags) (t : Option Str) : Bool := e.weak.contains t

/-- `ETags.contains` and `in`, cache_control.py:492-499, 540-541. -/
def ETags.contains (e : ETags) (t : Option Str) : Bool :=
  if e.star then true else e.strong.contains t

/-- `ETags.contains_weak`, cache_control.py:487-490. -/
def ETags.containsWeak (e : ETags) (t : Option Str) : Bool := e.isWeak t || e.contains t

/-- `ETags.contains_raw`, cache_control.py:501-508. -/
def ETags.containsRaw (e : ETags) (raw : Str) : Bool :=
  let (t, weak) := unquoteEtag raw
  if weak = some true then e.containsWeak t else e.contains t

/-- `ETags.__call__(etag, include_weak=...)`, cache_control.py:519-527 (with an etag given). -/
def ETags.call (e : ETags) (t : Option Str) (includeWeak : Bool) : Bool :=
  (includeWeak && e.weak.contains t) || e.strong.contains t

/-- `ETags.__bool__`, cache_control.py:529-530. -/
def ETags.truthy (e : ETags) : Bool := e.star || !e.strong.isEmpty || !e.weak.isEmpty

/-- `'%s' % x` of a tag.  Used for cache_control.py:510-517. -/
def tagText : Option Str → Str
  | none => s%"None"
  | some t => t

/-- `ETags.to_header`, cache_control.py:510-517. -/
def ETags.toHeader (e : ETags) : Str :=
  if e.star then s%"*"
  else Py.join s%", " (e.strong.map (fun x => s%"\"" ++ tagText x ++ s%"\"") ++
    e.weak.map (fun x => s%"w/\"" ++ tagText x ++ s%"\""))

/-- `.` of a `str` pattern.  Used for cache_control.py:19. -/
def dot (c : Char) : Bool := c != '\n'

/-- `(?:\s*,\s*|$)`, the end of `_etag_re`.  Used for cache_control.py:19. -/
def etagEnd : Re Char :=
  alt (seq (star true (cls Py.isSpace)) (seq (cls (· == ',')) (star true (cls Py.isSpace))))
    (eos (· == '\n'))

/-- `"(.*?)"`, the quoted alternative of `_etag_re`.  Used for cache_control.py:19. -/
def etagQuoted : Re Char :=
  seq (cls (· == '"')) (seq (grp 2 (star false (cls dot))) (cls (· == '"')))

/-- `([Ww]/)?`.  Used for cache_control.py:19. -/
def etagWeak : Re Char := opt (grp 1 (seq (cls fun c => c == 'W' || c == 'w') (cls (· == '/'))))

/-- `_etag_re`, cache_control.py:19: `([Ww]/)?(?:"(.*?)"|(.*?))(?:\s*,\s*|$)`. -/
def etagRe : Re Char :=
  seq etagWeak (seq (alt etagQuoted (grp 3 (star false (cls dot)))) etagEnd)

/-- The loop of `parse_etags`, cache_control.py:561-575, on the text from `pos` on.  The
fuel bounds the number of iterations; `none` means the loop is still running. -/
def parseLoop : Nat → List (Option Str) → List (Option Str) → Str → Option ETags
  | 0, _, _, _ => none
  | n + 1, strong, weak, s =>
    if s = [] then some (mk strong weak false)
    else match first etagRe none s with
      | none => some (mk strong weak false)
      | some m =>
        if m.group 3 = some s%"*" then some (mk [] [] true)
        else
          let raw := match m.group 2 with
            | some (c :: cs) => some (c :: cs)
            | _ => m.group 3
          if m.group 1 ≠ none then parseLoop n strong (weak ++ [raw]) m.rest
          else parseLoop n (strong ++ [raw]) weak m.rest

/-- `parse_etags(value)`, cache_control.py:547-575, limited to `fuel` iterations; a missing
or empty value gives the empty set. -/
def parseEtags (fuel : Nat) (value : Option Str) : Option ETags :=
  match value with
  | none => some (mk [] [] false)
  | some v => if v = [] then some (mk [] [] false) else parseLoop fuel [] [] v

/-- A `datetime` as microseconds; `.replace(microsecond=0)`.
Used for cache_control.py:583-623. -/
def truncSec (t : Int) : Int := t - t % 1000000

/-- `is_resource_modified(environ, etag, data, last_modified)`, cache_control.py:583-623.
`md5` is `generate_etag`; `ims` is the parsed If-Modified-Since; `inm` the If-None-Match
header.  Simplification: dates are already parsed (`parse_date` is modelled separately). -/
def isResourceModified {D : Type} (md5 : D → Str) (fuel : Nat) (method : Str) (inm : Option Str)
    (ims : Option Int) (etag : Option Str) (data : Option D) (lastModified : Option Int) :
    Except PyErr (Option Bool) :=
  let etag' : Except PyErr (Option Str) := match etag, data with
    | none, some d => .ok (some (md5 d))
    | some _, some _ => .error .typeError
    | e, none => .ok e
  match etag' with
  | .error e => .error e
  | .ok etag =>
    if method ≠ s%"GET" ∧ method ≠ s%"HEAD" then .ok (some false)
    else
      let unmodified : Bool := match ims, lastModified with
        | some i, some l => decide (truncSec l ≤ i)
        | _, _ => false
      match etag with
      | some (c :: cs) =>
        match parseEtags fuel inm with
        | none => .ok none
        | some tags =>
          .ok (some (!(if tags.truthy then tags.containsRaw (c :: cs) else unmodified)))
      | _ => .ok (some (!unmodified))

end Verif.Etag
