import Verif.RegexCost
import Verif.Model.Options
import Verif.Model.Etag
import Verif.Model.Cookie
import Verif.Model.Accept
import Verif.Model.Routing
/-!
How often the patterns of `/repo` are attempted: the loops over patterns, counted.
-/
namespace Verif.MatchCost
open Verif Verif.Re

/-- The attempts of `pattern.finditer(s)`, as in `Options.findIter`.  Used for http/basic.py:677-683. -/
def findCost (r : Re Char) : Nat → Option Char → Str → Nat
  | 0, _, _ => 0
  | n + 1, prev, s =>
    attempts r prev s +
      match first r prev s with
      | some m => findCost r n (after prev m.txt) m.rest
      | none => match s with
        | [] => 0
        | c :: cs => findCost r n (some c) cs

/-- The attempts of `parse_options_header(value)`, http/basic.py:661-692. -/
def optionsCost (value : Str) : Nat :=
  if value = [] then 0 else findCost Options.pieceRe (value.length + 2) none (';' :: value)

/-- The attempts of `_etag_re` in `parse_etags`, http/cache_control.py:561-575, at most `fuel` rounds. -/
def etagCost : Nat → Str → Nat
  | 0, _ => 0
  | n + 1, s =>
    if s = [] then 0
    else attempts Etag.etagRe none s +
      match first Etag.etagRe none s with
      | none => 0
      | some m => if m.group 3 = some s%"*" then 0 else etagCost n m.rest

/-- The attempts of `pattern.search(b)`, as in `Cookie.searchRe`.  Used for http/cookies.py:121-137. -/
def searchCost (r : Re UInt8) : Bytes → Nat
  | [] => attempts r none []
  | c :: cs => attempts r none (c :: cs) + match first r none (c :: cs) with
    | some _ => 0
    | none => searchCost r cs

/-- The attempts of `_cookie_re` in `_cookie_parse_impl`, http/cookies.py:121-137. -/
def cookieLoop : Nat → Bytes → Nat
  | 0, _ => 0
  | n + 1, s =>
    if s.length ≤ 1 then 0
    else searchCost Cookie.cookieRe s +
      match Cookie.searchRe Cookie.cookieRe s with
      | none => 0
      | some m => cookieLoop n m.rest

/-- The attempts of `_cookie_re` for a header, http/cookies.py:121-137. -/
def cookieCost (b : Bytes) : Nat := cookieLoop (b.length + 1) (b ++ [59])

/-- The attempts for a value of a range of an `Accept` header, accept/_base.py:65-67 and
accept/content_type.py:52-54. -/
def acceptCost : Accept.Kind → Str → Nat
  | .contentType, v => attempts Accept.contentTypeRe none v
  | _, v => attempts Accept.valueRe none v

/-- The attempts for the patterns of some routes, routing.py:649-650; matching stops at the first which
answers, so it makes no more.  Simplification: `search` also sees at every later place that `^` does
not hold there. -/
def routesCost (routes : List Routing.Bound) (path : Str) : Nat :=
  (routes.map fun b => if b.route.buildOnly then 0 else attempts b.re none path).sum

end Verif.MatchCost
