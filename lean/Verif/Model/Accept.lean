import Verif.Py
import Verif.Regex
import Verif.Dict
/-!
Model of `/repo/verktyg/accept/` (`_base.py`, `content_type.py`, `language.py`, `charset.py`,
`__init__.py`): content negotiation.
-/
namespace Verif.Accept
open Verif

/-! ### Floats -/

/-- A double.  Finite ones are integer multiples of `2^-1074`; signed zeros are identified.
Used for _base.py:57. -/
inductive Flt where
  | nan
  | inf (neg : Bool)
  | fin (units : Int)
deriving DecidableEq, Repr

namespace Flt
/-- `1.0`.  Used for _base.py:57. -/
def one : Flt := fin (2 ^ 1074)
/-- `0.0`.  Used for _base.py:57. -/
def zero : Flt := fin 0
/-- `a < b`.  Used for _base.py:57. -/
def lt : Flt → Flt → Bool
  | nan, _ => false
  | _, nan => false
  | inf true, inf true => false
  | inf true, _ => true
  | inf false, _ => false
  | fin _, inf neg => !neg
  | fin a, fin b => a < b
/-- `a <= b`.  Used for _base.py:85-176. -/
def le : Flt → Flt → Bool
  | nan, _ => false
  | _, nan => false
  | inf true, _ => true
  | inf false, b => b == inf false
  | fin _, inf neg => !neg
  | fin a, fin b => a ≤ b
/-- `a == b`.  Used for _base.py:85-176. -/
def eq (a b : Flt) : Bool := a != nan && a == b
/-- `max(min(x, 1.0), 0.0)`: `min` and `max` return their first argument unless the second is
smaller (larger).  _base.py:57, __init__.py:144. -/
def clamp (x : Flt) : Flt :=
  let y := if lt one x then one else x
  if lt y zero then zero else y
end Flt

/-! ### Ranges and headers -/

/-- `[a-zA-Z0-9]`.  Used for _base.py:17-24. -/
def alnum (c : Char) : Bool := c.isAlphanum

/-- `_token_re_str`, _base.py:17-24 and content_type.py:16-23. -/
def tokenRe : Re Char :=
  .seq (.plus (.cls alnum)) (.star true (.seq (.cls (· == '-')) (.plus (.cls alnum))))

/-- `_value_re`, _base.py:27-33: `^token | \*$`, two alternatives of which only the second is
anchored at the end. -/
def valueRe : Re Char := .alt tokenRe (.seq (.cls (· == '*')) (.eos (· == '\n')))

/-- `_content_type_value_re`, content_type.py:35-48; not anchored at the end. -/
def contentTypeRe : Re Char :=
  .cat [.alt tokenRe (.cls (· == '*')), .cls (· == '/'),
    .alt (.cat [.opt (.seq tokenRe (.cls (· == '.'))), tokenRe, .opt (.seq (.cls (· == '+')) tokenRe)])
      (.cls (· == '*'))]

/-- The three headers: `Accept`, `Accept-Language`, `Accept-Charset`.  Used for _base.py:65-67. -/
inductive Kind where
  | contentType | language | charset
deriving DecidableEq

/-- `Range`, _base.py:52-63; params as an insertion ordered dict. -/
structure Rng where
  value : Str
  q : Flt
  params : List (Str × Str)
deriving DecidableEq

/-- `_validate_value`, _base.py:65-67 and content_type.py:52-54. -/
def validValue : Kind → Str → Bool
  | .contentType, v => (Re.first contentTypeRe none v).isSome
  | _, v => (Re.first valueRe none v).isSome

/-- `Range.__init__`, _base.py:53-63 with `_validate_param` (language.py:16-17 and
charset.py:14-15 accept no parameter).  `float` is `float(str)`, `none` for `ValueError`. -/
def mkRange (float : Str → Option Flt) (k : Kind) (value q : Str) (params : List (Str × Str)) : Except PyErr Rng :=
  if validValue k value then
    match float q with
    | none => .error .valueError
    | some x => if k ≠ .contentType ∧ params ≠ [] then .error .valueError else .ok ⟨value, x.clamp, params⟩
  else .error .valueError

/-- The loop over parameters in `split_accept_string`, _base.py:233-241. -/
def splitParams (acc : List (Str × Str)) : List Str → Except PyErr (List (Str × Str))
  | [] => .ok acc
  | p :: ps =>
    match Py.split1 '=' p with
    | (_, none) => .error .valueError
    | (k, some v) => splitParams (Dict.set acc (Py.strip k) (Py.strip v)) ps

/-- One item of `split_accept_string`, _base.py:230-246: `(value, q, params)`. -/
def splitRange (s : Str) : Except PyErr (Str × Str × List (Str × Str)) :=
  match Py.splitOn ';' s with
  | [] => .error .valueError
  | v :: ps =>
    match splitParams [] ps with
    | .error e => .error e
    | .ok d => .ok (Py.strip v, (Dict.get d s%"q").getD s%"1.0", Dict.del d s%"q")

/-- `parse_accept_header` and its siblings: `Accept(split_accept_string(string))`,
_base.py:99-105, 229-246. -/
def parseRanges (float : Str → Option Flt) (k : Kind) : List Str → Except PyErr (List Rng)
  | [] => .ok []
  | s :: ss =>
    match splitRange s with
    | .error e => .error e
    | .ok (v, q, ps) =>
      match mkRange float k v q ps with
      | .error e => .error e
      | .ok r =>
        match parseRanges float k ss with
        | .error e => .error e
        | .ok rs => .ok (r :: rs)

/-- `parse_accept_header(string)`, content_type.py:140-143, language.py:73-74,
charset.py:41-42. -/
def parseAccept (float : Str → Option Flt) (k : Kind) (header : Str) : Except PyErr (List Rng) :=
  parseRanges float k (Py.splitOn ',' header)

/-- `Range.to_header`, _base.py:83-93; `repr` is `'%s' % q`. -/
def rangeHeader (repr : Flt → Str) (r : Rng) : Str :=
  r.value ++ (if Flt.eq r.q .one then [] else s%";q=" ++ repr r.q) ++
    r.params.flatMap fun p => ';' :: p.1 ++ '=' :: p.2

/-- `Accept.to_header`, _base.py:130-133. -/
def toHeader (repr : Flt → Str) (rs : List Rng) : Str := Py.join s%"," (rs.map (rangeHeader repr))

/-! ### Acceptability of one value -/

/-- `_base.Acceptability`, _base.py:136-176: how well a value matched (a tuple, compared
lexicographically) and the quality `q * qs`. -/
structure Acc where
  mq : List Int
  quality : Flt
deriving DecidableEq

/-- `>` on tuples of equal length.  Used for _base.py:166-176. -/
def tupleGt : List Int → List Int → Bool
  | x :: xs, y :: ys => if x = y then tupleGt xs ys else decide (y < x)
  | _, _ => false

/-- `Acceptability.__gt__`, _base.py:166-176, both arguments present. -/
def Acc.gt (a b : Acc) : Bool := tupleGt a.mq b.mq || Flt.lt b.quality a.quality
/-- `Acceptability.__eq__`, _base.py:154-164, both arguments present. -/
def Acc.eq (a b : Acc) : Bool := decide (a.mq = b.mq) && Flt.eq a.quality b.quality

/-- `type` and `subtype`: `a, b = value.split('/')`, content_type.py:56-64 and 104-112.  Used for content_type.py:114-132. -/
def slashPair (v : Str) : Except PyErr (Str × Str) :=
  match Py.splitOn '/' v with
  | [a, b] => .ok (a, b)
  | _ => .error .valueError

/-- How one part of a content type matches, content_type.py:115-127. -/
def partMatch (range value : Str) : Except PyErr Int :=
  if range = value then .ok 1 else if range = s%"*" then .ok 0 else .error .notAcceptable

/-- `_acceptability_for_option`: content_type.py:114-132, language.py:54-70,
_base.py:190-201. -/
def matchOption : Kind → Str → Str → Except PyErr (List Int)
  | .contentType, v, r =>
    match slashPair r, slashPair v with
    | .ok (rt, rs), .ok (t, s) =>
      match partMatch rt t with
      | .error e => .error e
      | .ok a =>
        match partMatch rs s with
        | .error e => .error e
        | .ok b => .ok [a, b]
    | _, _ => .error .valueError
  | .language, v, r =>
    let n (s : Str) : Int := (Py.splitOn '-' s).length
    if v = r then .ok [0, n r]
    else if (r ++ s%"-").isPrefixOf v then .ok [-(n v - n r), n r]
    else if r = s%"*" then .ok [-(n v), 0]
    else .error .notAcceptable
  | .charset, v, r =>
    if r = s%"*" then .ok [0] else if v = r then .ok [1] else .error .notAcceptable

/-- `quality`, _base.py:148-152; `mul` is the product of doubles. -/
def quality (mul : Flt → Flt → Flt) (q : Flt) (qs : Option Flt) : Flt :=
  match qs with
  | none => q
  | some x => mul q x

/-- The loop of `Value.acceptability`, _base.py:203-218. -/
def bestMatch (mul : Flt → Flt → Flt) (k : Kind) (v : Str) (qs : Option Flt) (best : Option Acc) :
    List Rng → Except PyErr (Option Acc)
  | [] => .ok best
  | o :: os =>
    match matchOption k v o.value with
    | .error .notAcceptable => bestMatch mul k v qs best os
    | .error e => .error e
    | .ok mq =>
      let m : Acc := ⟨mq, quality mul o.q qs⟩
      match best with
      | none => bestMatch mul k v qs (some m) os
      | some b => bestMatch mul k v qs (some (if m.gt b then m else b)) os

/-- `Value.acceptability`, _base.py:203-218. -/
def acceptability (mul : Flt → Flt → Flt) (k : Kind) (v : Str) (qs : Option Flt) (os : List Rng) : Except PyErr Acc :=
  match bestMatch mul k v qs none os with
  | .error e => .error e
  | .ok none => .error .notAcceptable
  | .ok (some a) => .ok a

/-! ### Representations -/

/-- `Representation`, __init__.py:125-144; `id` stands for the object itself (its action).
Of a charset only its presence matters to the code.  A text given for one of the three is kept as it is and without a
quality: content_type.py:146-149, language.py:77-78, charset.py:45-46. -/
structure Rep where
  id : Nat
  contentType : Option (Str × Option Flt)
  language : Option Str
  charset : Option Str
  qs : Flt
deriving DecidableEq

/-- `accept.Acceptability`, __init__.py:27-39.  `charset` is the uncalled bound method stored
by `Representation.acceptability` (present or not). -/
structure RepAcc where
  contentType : Option Acc
  language : Option Acc
  charset : Bool
  qs : Flt
deriving DecidableEq

/-- `Representation.acceptability`, __init__.py:146-191, as written: the language is looked up
with the content type and the charset not at all. -/
def repAcceptability (mul : Flt → Flt → Flt) (r : Rep) (accept : List Rng) : Except PyErr RepAcc :=
  match r.contentType with
  | none =>
    if r.language.isSome then .error .attributeError else .ok ⟨none, none, r.charset.isSome, r.qs⟩
  | some (v, qs) =>
    match acceptability mul .contentType v qs accept with
    | .error e => .error e
    | .ok a => .ok ⟨some a, if r.language.isSome then some a else none, r.charset.isSome, r.qs⟩

/-- `_gt` on optional acceptabilities, __init__.py:56-61. -/
def optGt : Option Acc → Option Acc → Bool
  | some a, some b => a.gt b
  | some _, none => true
  | none, _ => false

/-- `!=` of optional acceptabilities.  Used for __init__.py:41-53. -/
def optEq : Option Acc → Option Acc → Bool
  | some a, some b => a.eq b
  | none, none => true
  | _, _ => false

/-- `Acceptability.__gt__`, __init__.py:55-79.  Bound methods cannot be ordered. -/
def RepAcc.gt (a b : RepAcc) : Except PyErr Bool :=
  if optGt a.contentType b.contentType then .ok true
  else if optGt a.language b.language then .ok true
  else if a.charset || b.charset then .error .typeError
  else .ok (!(Flt.le a.qs b.qs))

/-- `Acceptability.__eq__`, __init__.py:41-53, without charsets (see `ge`). -/
def RepAcc.eq (a b : RepAcc) : Bool :=
  optEq a.contentType b.contentType && optEq a.language b.language && Flt.eq a.qs b.qs

/-- `>=` from `functools.total_ordering`: `a > b or a == b`.  When `>` is false neither has a
charset.  Used for __init__.py:104-117. -/
def RepAcc.ge (a b : RepAcc) : Except PyErr Bool :=
  match a.gt b with
  | .error e => .error e
  | .ok true => .ok true
  | .ok false => .ok (a.eq b)

/-- The loop of `select_representation`, __init__.py:104-117. -/
def selectGo (mul : Flt → Flt → Flt) (accept : List Rng) (best : Option (RepAcc × Rep)) :
    List Rep → Except PyErr (Option (RepAcc × Rep))
  | [] => .ok best
  | r :: rs =>
    match repAcceptability mul r accept with
    | .error .notAcceptable => selectGo mul accept best rs
    | .error e => .error e
    | .ok a =>
      match best with
      | none => selectGo mul accept (some (a, r)) rs
      | some (b, r') =>
        match a.ge b with
        | .error e => .error e
        | .ok true => selectGo mul accept (some (a, r)) rs
        | .ok false => selectGo mul accept (some (b, r')) rs

/-- `select_representation` once the headers are parsed, __init__.py:104-122. -/
def selectParsed (mul : Flt → Flt → Flt) (accept : List Rng) (reps : List Rep) : Except PyErr Rep :=
  match selectGo mul accept none reps with
  | .error e => .error e
  | .ok none => .error .notAcceptable
  | .ok (some (_, r)) => .ok r

/-- `select_representation`, __init__.py:82-122; a header that is `None` counts as `*/*` or
`*`. -/
def select (float : Str → Option Flt) (mul : Flt → Flt → Flt) (reps : List Rep)
    (accept language charset : Option Str) : Except PyErr Rep :=
  match parseAccept float .contentType (accept.getD s%"*/*") with
  | .error e => .error e
  | .ok os =>
    match parseAccept float .language (language.getD s%"*") with
    | .error e => .error e
    | .ok _ =>
      match parseAccept float .charset (charset.getD s%"*") with
      | .error e => .error e
      | .ok _ => selectParsed mul os reps

end Verif.Accept
