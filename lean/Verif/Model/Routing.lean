import Verif.Py
import Verif.Dict
import Verif.Regex
import Verif.Model.Urls
/-!
Model of `/repo/verktyg/routing.py`: rules, converters, compiled routes, the order of the
routes of a map, matching, building and redirects.

Simplifications, beyond those named at the definitions: the character set is UTF-8 (the
default); end points are strings; argument values are strings, integers, UUIDs and floats;
`urllib.parse.urljoin` is a parameter of the map.
-/
namespace Verif.Routing
open Verif

/-! ### values and text -/

/-- The values of arguments.  A float is given by `str(f)`.  Simplification: floats are not equal to
integers here.  Used for routing.py:814-817. -/
inductive Val where
  | str (s : Str)
  | int (i : Int)
  | uuid (n : Nat)
  | flt (s : Str)
deriving DecidableEq, Repr

/-- A hexadecimal digit, lower case.  Used for routing.py:814-817. -/
def hexChar (n : Nat) : Char := if n < 10 then Char.ofNat (48 + n) else Char.ofNat (87 + n)

/-- The last `k` hexadecimal digits of a number.  Used for routing.py:814-817. -/
def hexDigits : Nat → Nat → Str
  | 0, _ => []
  | k + 1, n => hexDigits k (n / 16) ++ [hexChar (n % 16)]

/-- `str(uuid.UUID(int=n))`.  Used for routing.py:814-817. -/
def uuidStr (n : Nat) : Str :=
  let h := hexDigits 32 n
  h.take 8 ++ s%"-" ++ (h.drop 8).take 4 ++ s%"-" ++ (h.drop 12).take 4 ++ s%"-" ++ (h.drop 16).take 4 ++ s%"-" ++
    h.drop 20

/-- `str(v)`.  Used for routing.py:814-817. -/
def Val.text : Val → Str
  | .str s => s
  | .int i => Py.intStr i
  | .uuid n => uuidStr n
  | .flt s => s

/-- `s.encode('utf-8')`.  Used for routing.py:814-817. -/
def utf8 (s : Str) : Bytes := s.flatMap String.utf8EncodeChar

/-- `urllib.parse.quote(s, safe=safe)`.  Used for routing.py:814-817. -/
def urlquote (safe : List UInt8) (s : Str) : Str := (Urls.quote safe (utf8 s)).map fun b => Char.ofNat b.toNat

/-- `urllib.parse.quote_plus(s)`.  Used for routing.py:701-712. -/
def quotePlus (s : Str) : Str := (urlquote [32] s).map fun c => if c = ' ' then '+' else c

/-- `s.lstrip('/')`.  Used for routing.py:1453-1466. -/
def lstripSlash (s : Str) : Str := s.dropWhile (· == '/')

/-- `s.rstrip('/')`.  Used for routing.py:511-512, 556-571 and 583-636. -/
def rstripSlash (s : Str) : Str := Py.rstripP (· == '/') s

/-! ### converters, routing.py:803-984 -/

/-- A converter: its regular expression, its weight, and its two conversions.  `toPython` is
`none` and `toUrl` is `.ok none` where `ValidationError` is raised.
Models routing.py:803-817. -/
structure Converter where
  re : Re Char
  weight : Int
  toPython : Str → Option Val
  toUrl : Val → Except PyErr (Option Str)

/-- `BaseConverter.to_url`, routing.py:814-817. -/
def baseUrl (v : Val) : Except PyErr (Option Str) := .ok (some (urlquote b%"/:" v.text))

/-- `a{m,m+k}` (greedy).  Used for routing.py:820-854. -/
def optN (a : Re Char) : Nat → Re Char
  | 0 => .eps
  | k + 1 => .alt (.seq a (optN a k)) .eps

/-- `a{m,n}` (greedy); no upper bound if `n` is `none`.  Used for routing.py:820-854. -/
def rep (a : Re Char) : Nat → Option Nat → Re Char
  | 0, none => .star true a
  | 0, some k => optN a k
  | m + 1, n => .seq a (rep a m (n.map (· - 1)))

/-- `[^/]`.  Used for routing.py:820-854. -/
def noSlash (c : Char) : Bool := c != '/'

/-- `UnicodeConverter`, routing.py:820-854; `length=n` is `minlength=n, maxlength=n`.
Simplification: the pattern is compiled, so `minLen` is not above `maxLen`. -/
def stringConv (minLen : Nat) (maxLen : Option Nat) : Converter :=
  { re := rep (.cls noSlash) minLen maxLen, weight := 100, toPython := fun s => some (.str s), toUrl := baseUrl }

/-- The alternatives `a|b|...` of literal strings; none at all match the empty string.
Used for routing.py:857-871. -/
def anyRe : List Str → Re Char
  | [] => .eps
  | items => Re.alts (items.map Re.lit)

/-- `AnyConverter`, routing.py:857-871. -/
def anyConv (items : List Str) : Converter :=
  { re := anyRe items, weight := 100, toPython := fun s => some (.str s), toUrl := baseUrl }

/-- `.`: any character but a newline.  Used for routing.py:874-885. -/
def dot (c : Char) : Bool := c != '\n'

/-- `PathConverter`, routing.py:874-885. -/
def pathConv : Converter :=
  { re := .seq (.cls noSlash) (.star false (.cls dot)), weight := 200, toPython := fun s => some (.str s)
    toUrl := baseUrl }

/-- `int(s)` of a string of decimal digits; `dec` gives the value of a decimal digit of any
script (`\d` matches all of them).  Used for routing.py:888-943. -/
def intD (dec : Char → Option Nat) (s : Str) : Nat := s.foldl (fun n c => n * 10 + (dec c).getD 0) 0

/-- `'%0kd' % i`: the sign counts towards the width.  Used for routing.py:888-943. -/
def zeroPad (k : Nat) (i : Int) : Str :=
  if i < 0 then '-' :: (List.replicate (k - 1 - (Py.natStr i.natAbs).length) '0' ++ Py.natStr i.natAbs)
  else List.replicate (k - (Py.natStr i.natAbs).length) '0' ++ Py.natStr i.natAbs

/-- `num_convert` of `IntegerConverter`: `int(value)`.  Simplification: floats whose text has an
exponent or no digits are refused.  Used for routing.py:888-943. -/
def numConvert : Val → Except PyErr Int
  | .str s => Py.intOf s
  | .int i => .ok i
  | .uuid n => .ok n
  | .flt s => if 'e' ∈ s then .error .valueError else Py.intOf (s.takeWhile (· != '.'))

/-- `self.min is not None and value < self.min`.  Used for routing.py:888-943. -/
def below (lo : Option Int) (n : Int) : Bool :=
  match lo with
  | some l => n < l
  | none => false

/-- `self.max is not None and value > self.max`.  Used for routing.py:888-943. -/
def above (hi : Option Int) (n : Int) : Bool :=
  match hi with
  | some h => n > h
  | none => false

/-- `IntegerConverter`, routing.py:888-943. -/
def intConv (dec : Char → Option Nat) (fixed : Nat) (lo hi : Option Int) : Converter :=
  { re := Re.plus (.cls fun c => (dec c).isSome), weight := 50
    toPython := fun s =>
      if fixed ≠ 0 ∧ s.length ≠ fixed then none
      else
        let n : Int := intD dec s
        if below lo n ∨ above hi n then none
        else some (.int n)
    toUrl := fun v =>
      match numConvert v with
      | .error e => .error e
      | .ok i => .ok (some (if fixed ≠ 0 then zeroPad fixed i else Py.intStr i)) }

/-- What the interpreter knows of floats: `canon s` is `str(float(s))`, `none` where `ValueError` is raised;
`ofInt i` is `str(float(i))`; `lt` compares the floats of two texts.  Used for routing.py:946-964. -/
structure FloatLib where
  canon : Str → Option Str
  ofInt : Int → Except PyErr Str
  lt : Str → Str → Bool

/-- `num_convert` of `FloatConverter`: `float(value)`; a UUID is refused.  Used for routing.py:946-964. -/
def floatConvert (F : FloatLib) : Val → Except PyErr Str
  | .str s => match F.canon s with
    | some f => .ok f
    | none => .error .valueError
  | .int i => F.ofInt i
  | .uuid _ => .error .typeError
  | .flt s => .ok s

/-- `FloatConverter`, routing.py:946-964 with 899-921.  The bounds are texts of floats.
`float` accepts every text that fits the pattern. -/
def floatConv (F : FloatLib) (dec : Char → Option Nat) (lo hi : Option Str) : Converter :=
  { re := Re.cat [Re.plus (.cls fun c => (dec c).isSome), Re.lit s%".", Re.plus (.cls fun c => (dec c).isSome)]
    weight := 50
    toPython := fun s =>
      match F.canon s with
      | none => none
      | some f =>
        if lo.any (fun l => F.lt f l) || hi.any (fun h => F.lt h f) then none
        else some (.flt f)
    toUrl := fun v =>
      match floatConvert F v with
      | .error e => .error e
      | .ok f => .ok (some f) }

/-- `[A-Fa-f0-9]`.  Used for routing.py:967-984. -/
def isHex (c : Char) : Bool :=
  let n := c.toNat
  (48 ≤ n && n ≤ 57) || (65 ≤ n && n ≤ 70) || (97 ≤ n && n ≤ 102)

/-- The value of a hexadecimal digit.  Used for routing.py:967-984. -/
def hexOf (c : Char) : Nat :=
  let n := c.toNat
  if n ≤ 57 then n - 48 else if n ≤ 70 then n - 55 else n - 87

/-- `uuid.UUID(s)` for text of the converter's form: hyphens are dropped.
Used for routing.py:967-984. -/
def uuidOf (s : Str) : Nat := (s.filter (· != '-')).foldl (fun n c => n * 16 + hexOf c) 0

/-- `a{n}`.  Used for routing.py:967-984. -/
def times (a : Re Char) (n : Nat) : Re Char := rep a n (some n)

/-- `UUIDConverter`, routing.py:967-984. -/
def uuidConv : Converter :=
  { re := Re.cat [times (.cls isHex) 8, Re.lit s%"-", times (.cls isHex) 4, Re.lit s%"-", times (.cls isHex) 4,
      Re.lit s%"-", times (.cls isHex) 4, Re.lit s%"-", times (.cls isHex) 12]
    weight := 100, toPython := fun s => some (.uuid (uuidOf s)), toUrl := fun v => .ok (some v.text) }

/-! ### rules -/

/-- A part of a rule: text, or a variable with its converter and the converter's arguments.
Used for routing.py:198-202. -/
inductive Piece where
  | text (s : Str)
  | var (conv : Str) (args : Option Str) (name : Str)
deriving DecidableEq, Repr

/-- `[a-zA-Z_]`.  Used for routing.py:109-119. -/
def identHead (c : Char) : Bool :=
  let n := c.toNat
  (65 ≤ n && n ≤ 90) || (97 ≤ n && n ≤ 122) || n == 95
/-- `[a-zA-Z0-9_]`.  Used for routing.py:109-119. -/
def identTail (c : Char) : Bool := identHead c || (48 ≤ c.toNat && c.toNat ≤ 57)
/-- `[a-zA-Z_][a-zA-Z0-9_]*`.  Used for routing.py:109-119. -/
def identRe : Re Char := .seq (.cls identHead) (.star true (.cls identTail))

/-- `_route_re`, routing.py:109-119.  Groups: 0 static, 1 converter, 2 args, 3 variable. -/
def routeRe : Re Char :=
  Re.cat [.grp 0 (.star true (.cls (· != '<'))), Re.lit s%"<",
    Re.opt (Re.cat [.grp 1 identRe, Re.opt (Re.cat [Re.lit s%"(", .grp 2 (.star false (.cls dot)), Re.lit s%")"]),
      Re.lit s%":"]),
    .grp 3 identRe, Re.lit s%">"]

/-- The text after the last match, routing.py:198-202. -/
def parseRest (s : Str) : Except PyErr (List Piece) :=
  if s = [] then .ok []
  else if '>' ∈ s ∨ '<' ∈ s then .error .valueError
  else .ok [.text s]

/-- The loop of `parse_route`, routing.py:184-197, at most `fuel` rounds (each consumes text). -/
def parseGo : Nat → List Str → Str → Except PyErr (List Piece)
  | 0, _, s => parseRest s
  | n + 1, used, s =>
    match Re.first routeRe none s with
    | none => parseRest s
    | some m =>
      let var := (m.group 3).getD []
      if var ∈ used then .error .valueError
      else
        let static := (m.group 0).getD []
        let conv := match m.group 1 with | some c => c | none => s%"default"
        let args := match m.group 2 with | some [] => none | a => a
        match parseGo n (var :: used) m.rest with
        | .error e => .error e
        | .ok ps => .ok ((if static = [] then [] else [.text static]) ++ .var conv args var :: ps)

/-- `parse_route`, routing.py:173-202 (a generator, read to its end). -/
def parseRoute (s : Str) : Except PyErr (List Piece) := parseGo s.length [] s

/-! ### routes -/

/-- A dictionary of arguments.  Used for routing.py:507-531. -/
abbrev Values := List (Str × Val)

/-- The settings of a map, routing.py:1036-1060.  `conv` stands for `get_converter` with
`parse_converter_args`, routing.py:154-170 and 573-581. -/
structure Config where
  hostMatching : Bool := false
  defaultSubdomain : Str := []
  strictSlashes : Bool := true
  redirectDefaults : Bool := true
  conv : Str → Option Str → Except PyErr Converter
  urljoin : Str → Str → Str

/-- A target of `redirect_to`: text with placeholders, or a function of the arguments.
Used for routing.py:507-531. -/
inductive Target where
  | text (s : Str)
  | call (f : Values → Str)

/-- The arguments of `Route(...)`, routing.py:507-531. -/
structure Route where
  rule : Str
  defaults : Values := []
  subdomain : Option Str := none
  buildOnly : Bool := false
  endpoint : Str := []
  strictSlashes : Option Bool := none
  redirectTo : Option Target := none
  alias : Bool := false
  host : Option Str := none

/-- `is_leaf`, routing.py:515. -/
def Route.leaf (r : Route) : Bool := r.rule.getLast? != some '/'

/-- A part of the trace of a compiled route: text, or a variable and its converter.
Used for routing.py:597-620. -/
inductive Part where
  | text (s : Str)
  | var (name : Str) (c : Converter)

/-- A compiled route.  Models routing.py:507-531 and 583-636. -/
structure Bound where
  /-- the number of the route: 0 for the first one registered, and so on -/
  id : Nat
  route : Route
  strict : Bool
  domain : List Part
  path : List Part

/-- The parts of a rule with their converters, `_build_regex`, routing.py:597-620. -/
def build_regex (cfg : Config) : List Piece → Except PyErr (List Part)
  | [] => .ok []
  | .text s :: ps =>
    match build_regex cfg ps with
    | .error e => .error e
    | .ok l => .ok (.text s :: l)
  | .var c args name :: ps =>
    match cfg.conv c args with
    | .error e => .error e
    | .ok conv =>
      match build_regex cfg ps with
      | .error e => .error e
      | .ok l => .ok (.var name conv :: l)

/-- The variables of some parts.  Used for routing.py:527-530 and 619. -/
def vars : List Part → List (Str × Converter)
  | [] => []
  | .text _ :: ps => vars ps
  | .var n c :: ps => (n, c) :: vars ps

/-- The weights of some parts, routing.py:602-604 and 618. -/
def weights : List Part → List (Int × Int)
  | [] => []
  | .text s :: ps => ((Py.splitOn '/' s).filter (· ≠ [])).map (fun p => (0, -(p.length : Int))) ++ weights ps
  | .var _ c :: ps => (1, c.weight) :: weights ps

/-- The variables of a route, those of the domain first.  Used for routing.py:527-530 and 619. -/
def Bound.vars (b : Bound) : List (Str × Converter) := Routing.vars b.domain ++ Routing.vars b.path

/-- `_weights`.  Used for routing.py:749-763. -/
def Bound.weights (b : Bound) : List (Int × Int) := Routing.weights b.domain ++ Routing.weights b.path

/-- `arguments`, routing.py:527-530 and 619 (a set). -/
def Bound.arguments (b : Bound) : List Str := Dict.keys b.route.defaults ++ b.vars.map (·.1)

/-- Whether the regular expression has the optional slash at its end, routing.py:630-635. -/
def Bound.suffixed (b : Bound) : Bool := !b.route.leaf || !b.strict

/-- The names of the groups of the regular expression.
Used for routing.py:511-512, 556-571 and 583-636. -/
def Bound.names (b : Bound) : List Str := (if b.suffixed then [s%"__suffix__"] else []) ++ b.vars.map (·.1)

/-- `bind` and `compile`, routing.py:511-512, 556-571 and 583-636.  The duplicate group that `re.compile` rejects
(its `re.error` is not among the exceptions of the model) is given as `runtimeError`.  Simplifications: the rule is
parsed before its converters are made, so that of several errors another one may be raised; and where a route that is
only for building has a variable both in its domain and in its path, each keeps its own converter (in the code both
use the one of the path). -/
def compile (cfg : Config) (id : Nat) (r : Route) : Except PyErr Bound :=
  let strict := r.strictSlashes.getD cfg.strictSlashes
  let domain := if cfg.hostMatching then r.host.getD [] else r.subdomain.getD cfg.defaultSubdomain
  if r.rule.head? ≠ some '/' then .error .valueError
  else
    match parseRoute domain, parseRoute (if r.leaf then r.rule else rstripSlash r.rule) with
    | .error e, _ => .error e
    | .ok _, .error e => .error e
    | .ok ds, .ok ps =>
      match build_regex cfg ds, build_regex cfg ps with
      | .error e, _ => .error e
      | .ok _, .error e => .error e
      | .ok d, .ok p =>
        let b : Bound := ⟨id, r, strict, d, p⟩
        if b.names.Nodup ∨ r.buildOnly then .ok b
        else .error .runtimeError

/-! ### matching one route -/

/-- The regular expression of some parts; the variables are the groups from `n` on.
Used for routing.py:626-636. -/
def partsRe : Nat → List Part → List (Re Char)
  | _, [] => []
  | n, .text s :: ps => Re.lit s :: partsRe n ps
  | n, .var _ c :: ps => .grp n c.re :: partsRe (n + 1) ps

/-- A sequence of regular expressions.  Used for routing.py:626-636. -/
def seqs : List (Re Char) → Re Char → Re Char
  | [], r => r
  | a :: as, r => .seq a (seqs as r)

/-- `$`.  Used for routing.py:626-636. -/
def atEnd : Re Char := .eos (· == '\n')

/-- `(?<!/)(?P<__suffix__>/?)$` or `$`.  Used for routing.py:626-636. -/
def tailRe (b : Bound) : Re Char :=
  if b.suffixed then .seq (.notAfter (· == '/')) (.seq (.grp b.vars.length (Re.opt (Re.lit s%"/"))) atEnd)
  else atEnd

/-- `_regex`, routing.py:626-636. -/
def Bound.re (b : Bound) : Re Char :=
  seqs (partsRe 0 b.domain ++ Re.lit s%"|" :: partsRe (Routing.vars b.domain).length b.path) (tailRe b)

/-- What `Route.match` does: nothing, raise `RequestSlash`, raise `RequestAliasRedirect`, or
return the arguments.  Used for routing.py:638-680. -/
inductive Found where
  | none
  | slash
  | alias (values : Values)
  | values (values : Values)
deriving DecidableEq

/-- The conversion of the groups, routing.py:666-672. -/
def convert (m : Re.M Char) : Nat → List (Str × Converter) → Option (Values)
  | _, [] => some []
  | n, (name, c) :: vs =>
    match c.toPython ((m.group n).getD []) with
    | none => none
    | some v => (convert m (n + 1) vs).map ((name, v) :: ·)

/-- `d.update(e)`.  Used for routing.py:638-680. -/
def update (d e : Values) : Values := e.foldl (fun d kv => Dict.set d kv.1 kv.2) d

/-- `Route.match`, routing.py:638-680. -/
def Bound.match_ (cfg : Config) (b : Bound) (path : Str) : Found :=
  if b.route.buildOnly then .none
  else
    match Re.first b.re none path with
    | none => .none
    | some m =>
      if b.strict ∧ !b.route.leaf ∧ (m.group b.vars.length).getD [] = [] then .slash
      else
        match convert m 0 b.vars with
        | none => .none
        | some vs =>
          let result := update vs b.route.defaults
          if b.route.alias ∧ cfg.redirectDefaults then .alias result else .values result

/-! ### building -/

/-- The text of the parts, routing.py:689-698. -/
def buildParts (values : Values) : List Part → Except PyErr (Option Str)
  | [] => .ok (some [])
  | .text s :: ps =>
    match buildParts values ps with
    | .ok (some t) => .ok (some (urlquote b%"/:|+" s ++ t))
    | r => r
  | .var n c :: ps =>
    match Dict.get values n with
    | none => .error .keyError
    | some v =>
      match c.toUrl v with
      | .error e => .error e
      | .ok none => .ok none
      | .ok (some u) =>
        match buildParts values ps with
        | .ok (some t) => .ok (some (u ++ t))
        | r => r

/-- `_trace`, routing.py:589-625. -/
def Bound.trace (b : Bound) : List Part :=
  b.domain ++ .text s%"|" :: b.path ++ (if b.route.leaf then [] else [.text s%"/"])

/-- `a < b` for strings.  Used for routing.py:701-712. -/
def strLt : Str → Str → Bool
  | [], [] => false
  | [], _ :: _ => true
  | _ :: _, [] => false
  | a :: as, b :: bs => if a = b then strLt as bs else a.toNat < b.toNat

/-- Insertion, keeping the order of equal elements.  Used for routing.py:701-712. -/
def insertBy {α} (le : α → α → Bool) (x : α) : List α → List α
  | [] => [x]
  | y :: ys => if le x y then x :: y :: ys else y :: insertBy le x ys

/-- `list.sort`, a stable sort.  Used for routing.py:701-712. -/
def sortBy {α} (le : α → α → Bool) (l : List α) : List α := l.foldr (insertBy le) []

/-- `urlencode(items)`.  Used for routing.py:701-712. -/
def urlencode (items : Values) : Str :=
  Py.join s%"&" (items.map fun kv => quotePlus kv.1 ++ s%"=" ++ quotePlus kv.2.text)

/-- The query of the values which are no arguments, routing.py:701-712; with the default
`sort_key`. -/
def queryOf (b : Bound) (values : Values) : Str :=
  let rest := values.filter fun kv => !b.arguments.contains kv.1
  if rest = [] then [] else s%"?" ++ urlencode (sortBy (fun x y => !strLt y.1 x.1) rest)

/-- `Route.build`, routing.py:682-714. -/
def Bound.build (b : Bound) (values : Values) (appendUnknown : Bool) : Except PyErr (Option (Str × Str)) :=
  match buildParts values b.trace with
  | .error e => .error e
  | .ok none => .ok none
  | .ok (some t) =>
    let s := Py.split1 '|' t
    .ok (some (s.1, s.2.getD [] ++ (if appendUnknown then queryOf b values else [])))

/-- Equality of sets given as lists.  Used for routing.py:716-725. -/
def sameSet (a b : List Str) : Bool := a.all b.contains && b.all a.contains

/-- `_trace == _trace`.  Used for routing.py:716-725. -/
def sameTrace : List Part → List Part → Bool
  | [], [] => true
  | .text s :: ps, .text t :: qs => s == t && sameTrace ps qs
  | .var n _ :: ps, .var m _ :: qs => n == m && sameTrace ps qs
  | _, _ => false

/-- `provides_defaults_for`, routing.py:716-725. -/
def Bound.providesDefaultsFor (r route : Bound) : Bool :=
  !r.route.buildOnly && !r.route.defaults.isEmpty && r.route.endpoint == route.route.endpoint &&
    !sameTrace r.trace route.trace && sameSet r.arguments route.arguments

/-- `suitable_for`, routing.py:727-747. -/
def Bound.suitableFor (b : Bound) (values : Values) : Bool :=
  b.arguments.all (fun k => Dict.has b.route.defaults k || Dict.has values k) &&
    b.route.defaults.all fun kv => match Dict.get values kv.1 with | some v => v == kv.2 | none => true

/-! ### the map -/

/-- `match_compare_key`, routing.py:749-763. -/
def Bound.matchKey (b : Bound) : Bool × Int × List (Int × Int) :=
  (!b.arguments.isEmpty, -(b.weights.length : Int), b.weights)

/-- `build_compare_key`, routing.py:765-773. -/
def Bound.buildKey (b : Bound) : Int × Int × Int :=
  (if b.route.alias then 1 else 0, -(b.arguments.eraseDups.length : Int), -(b.route.defaults.length : Int))

/-- Comparison of pairs.  Used for routing.py:1237-1245. -/
def pairCmp (a b : Int × Int) : Ordering := (compare a.1 b.1).then (compare a.2 b.2)

/-- Comparison of match keys: tuples, and lists within them.  Used for routing.py:1237-1245. -/
def matchCmp (a b : Bool × Int × List (Int × Int)) : Ordering :=
  (compare a.1 b.1).then ((compare a.2.1 b.2.1).then (List.compareLex pairCmp a.2.2 b.2.2))

/-- Comparison of build keys.  Used for routing.py:1237-1245. -/
def buildCmp (a b : Int × Int × Int) : Ordering :=
  (compare a.1 b.1).then ((compare a.2.1 b.2.1).then (compare a.2.2 b.2.2))

/-- Used for routing.py:1237-1245. -/
def matchLe (a b : Bound) : Bool := (matchCmp a.matchKey b.matchKey).isLE
/-- Used for routing.py:1237-1245. -/
def buildLe (a b : Bound) : Bool := (buildCmp a.buildKey b.buildKey).isLE

/-- A `URLMap`: the list of routes, the lists of each end point, and whether they have to be
sorted again.  Models routing.py:1036-1060. -/
structure URLMap where
  cfg : Config
  routes : List Bound
  byEndpoint : Str → List Bound
  remap : Bool
  count : Nat

/-- An empty map, routing.py:1042-1044. -/
def URLMap.new (cfg : Config) : URLMap := ⟨cfg, [], fun _ => [], true, 0⟩

/-- A compiled route becomes part of the map, routing.py:1105-1108. -/
def URLMap.push (m : URLMap) (b : Bound) : URLMap :=
  { m with
    routes := m.routes ++ [b]
    byEndpoint := fun e => if e = b.route.endpoint then m.byEndpoint e ++ [b] else m.byEndpoint e
    count := m.count + 1 }

/-- `add_routes` with routes, routing.py:1095-1109; the exception of a route that can not be
compiled leaves the routes before it in the map. -/
def URLMap.add : URLMap → List Route → URLMap × Option PyErr
  | m, [] => ({ m with remap := true }, none)
  | m, r :: rs =>
    match compile m.cfg m.count r with
    | .error e => (m, some e)
    | .ok b => (m.push b).add rs

/-- `update`, routing.py:1237-1245. -/
def URLMap.update (m : URLMap) : URLMap :=
  if m.remap then
    { m with
      routes := sortBy matchLe m.routes
      byEndpoint := fun e => sortBy buildLe (m.byEndpoint e)
      remap := false }
  else m

/-! ### adapters -/

/-- A `MapAdapter`, routing.py:1257-1270, without its map.  Simplification: the subdomain is
never `None`. -/
structure Adapter where
  serverName : Str
  scriptName : Str
  subdomain : Str
  scheme : Str

/-- `MapAdapter(...)`: the script name gets a slash at its end.  routing.py:1257-1270. -/
def Adapter.mk' (serverName scriptName subdomain scheme : Str) : Adapter :=
  ⟨serverName, if scriptName.getLast? = some '/' then scriptName else scriptName ++ s%"/", subdomain, scheme⟩

/-- `posixpath.join(a, b)`.  Used for routing.py:1453-1466. -/
def joinPath (a b : Str) : Str :=
  if b.head? = some '/' then b
  else if a = [] ∨ a.getLast? = some '/' then a ++ b
  else a ++ s%"/" ++ b

/-- `urlunparse` with scheme, authority, path and query, of which the scheme is one that has an
authority or is empty.  Used for routing.py:1453-1466. -/
def unparse (scheme netloc path query : Str) : Str :=
  let p := if path ≠ [] ∧ path.head? ≠ some '/' then s%"/" ++ path else path
  let u := if netloc ≠ [] ∨ (scheme ≠ [] ∧ ¬ s%"//".isPrefixOf path) then s%"//" ++ netloc ++ p else path
  let u := if scheme ≠ [] then scheme ++ s%":" ++ u else u
  if query ≠ [] then u ++ s%"?" ++ query else u

/-- `get_host`, routing.py:1408-1424. -/
def getHost (cfg : Config) (a : Adapter) (domainPart : Option Str) : Str :=
  if cfg.hostMatching then domainPart.getD a.serverName
  else
    let sub := domainPart.getD a.subdomain
    if sub ≠ [] then sub ++ s%"." ++ a.serverName else a.serverName

/-- `make_redirect_url`, routing.py:1453-1466; the query as a string. -/
def makeRedirectUrl (cfg : Config) (a : Adapter) (path : Str) (query : Str) (domainPart : Option Str) : Str :=
  unparse a.scheme (getHost cfg a domainPart)
    (joinPath (rstripSlash (lstripSlash a.scriptName)) (lstripSlash path)) query

/-- The routes tried by `build`, routing.py:1544-1549. -/
def buildGo (values : Values) (appendUnknown : Bool) : List Bound → Except PyErr (Option (Str × Str))
  | [] => .ok none
  | b :: bs =>
    if b.suitableFor values then
      match b.build values appendUnknown with
      | .ok none => buildGo values appendUnknown bs
      | r => r
    else buildGo values appendUnknown bs

/-- `MapAdapter.build`, routing.py:1480-1567 (no argument is `None`). -/
def build (m : URLMap) (a : Adapter) (endpoint : Str) (values : Values) (forceExternal appendUnknown : Bool) :
    Except PyErr Str :=
  match buildGo values appendUnknown (m.update.byEndpoint endpoint) with
  | .error e => .error e
  | .ok none => .error .buildError
  | .ok (some (domainPart, path)) =>
    let host := getHost m.cfg a (some domainPart)
    if forceExternal = false ∧ ((m.cfg.hostMatching ∧ host = a.serverName) ∨
        (m.cfg.hostMatching = false ∧ domainPart = a.subdomain)) then
      .ok (m.cfg.urljoin a.scriptName (s%"./" ++ lstripSlash path))
    else .ok (unparse a.scheme host (joinPath a.scriptName (lstripSlash path)) [])

/-- `get_default_redirect`, routing.py:1426-1446: the URL, if there is one, and the arguments
as updated. -/
def getDefaultRedirect (cfg : Config) (a : Adapter) (route : Bound) (values : Values) (query : Str) :
    List Bound → Except PyErr (Option Str)
  | [] => .ok none
  | r :: rs =>
    if r.id = route.id then .ok none
    else if r.providesDefaultsFor route ∧ r.suitableFor values then
      match r.build (Routing.update values r.route.defaults) true with
      | .error e => .error e
      | .ok none => .error .typeError
      | .ok (some (d, path)) => .ok (some (makeRedirectUrl cfg a path query (some d)))
    else getDefaultRedirect cfg a route values query rs

/-- `make_alias_redirect_url`, routing.py:1468-1478. -/
def makeAliasRedirectUrl (m : URLMap) (a : Adapter) (path endpoint : Str) (values : Values) (query : Str) :
    Except PyErr Str :=
  match build m a endpoint values true false with
  | .error e => .error e
  | .ok url =>
    let url := if query ≠ [] then url ++ s%"?" ++ query else url
    if url = path then .error .assertionError else .ok url

/-- `_simple_route_re.sub(...)` of `redirect_to`, routing.py:1370-1375: the placeholders `<x>`
are replaced; `name` is the text since the last `<`, if any. -/
def substitute (b : Bound) (values : Values) : Option Str → Str → Except PyErr Str
  | none, [] => .ok []
  | some name, [] => .ok ('<' :: name)
  | none, c :: cs =>
    if c = '<' then substitute b values (some []) cs
    else match substitute b values none cs with
      | .error e => .error e
      | .ok t => .ok (c :: t)
  | some name, c :: cs =>
    if c = '>' ∧ name ≠ [] then
      match Dict.get values name, b.vars.lookup name with
      | some v, some conv =>
        match conv.toUrl v with
        | .error e => .error e
        | .ok none => .error .valueError
        | .ok (some u) =>
          match substitute b values none cs with
          | .error e => .error e
          | .ok t => .ok (u ++ t)
      | _, _ => .error .keyError
    else if c = '>' then
      match substitute b values none cs with
      | .error e => .error e
      | .ok t => .ok ('<' :: '>' :: t)
    else substitute b values (some (name ++ [c])) cs

/-- What `match` answers: a route and its arguments, or the URL of `RequestRedirect`.
Used for routing.py:1350-1388. -/
inductive Answer where
  | found (route : Bound) (values : Values)
  | redirect (url : Str)

/-- The address of `redirect_to`, routing.py:1368-1383. -/
def redirectTarget (cfg : Config) (a : Adapter) (b : Bound) (values : Values) (t : Target) : Except PyErr Str :=
  let base := a.scheme ++ s%"://" ++ (if a.subdomain ≠ [] then a.subdomain ++ s%"." else []) ++ a.serverName ++ a.scriptName
  match t with
  | .call f => .ok (cfg.urljoin base (f values))
  | .text s =>
    match substitute b values none s with
    | .error e => .error e
    | .ok u => .ok (cfg.urljoin base u)

/-- What happens with a matching route, routing.py:1350-1388. -/
def answer (m : URLMap) (a : Adapter) (path pathInfo query : Str) (b : Bound) : Found → Except PyErr Answer
  | .none => .error .notFound
  | .slash => .ok (.redirect (makeRedirectUrl m.cfg a (urlquote b%"/:|+" pathInfo ++ s%"/") query none))
  | .alias vs =>
    match makeAliasRedirectUrl m a path b.route.endpoint vs query with
    | .error e => .error e
    | .ok url => .ok (.redirect url)
  | .values vs =>
    match (if m.cfg.redirectDefaults then getDefaultRedirect m.cfg a b vs query (m.byEndpoint b.route.endpoint)
      else .ok none) with
    | .error e => .error e
    | .ok (some url) => .ok (.redirect url)
    | .ok none =>
      match b.route.redirectTo with
      | some t =>
        match redirectTarget m.cfg a b vs t with
        | .error e => .error e
        | .ok url => .ok (.redirect url)
      | none => .ok (.found b vs)

/-- The loop over the routes, routing.py:1347-1390. -/
def matchGo (m : URLMap) (a : Adapter) (path pathInfo query : Str) : List Bound → Except PyErr Answer
  | [] => .error .notFound
  | b :: bs =>
    match b.match_ m.cfg path with
    | .none => matchGo m a path pathInfo query bs
    | f => answer m a path pathInfo query b f

/-- The path given to the routes, routing.py:1342-1345. -/
def fullPath (cfg : Config) (a : Adapter) (pathInfo : Str) : Str :=
  (if cfg.hostMatching ∧ a.serverName ≠ [] then a.serverName else a.subdomain) ++ s%"|/" ++ lstripSlash pathInfo

/-- `MapAdapter.match(path_info, return_route=True, query_args=query)`, routing.py:1272-1390. -/
def match_ (m : URLMap) (a : Adapter) (pathInfo query : Str) : Except PyErr Answer :=
  matchGo m.update a (fullPath m.cfg a pathInfo) pathInfo query m.update.routes

/-- `MapAdapter.test`, routing.py:1392-1406: an error of another kind than an HTTP exception
is passed on. -/
def test (m : URLMap) (a : Adapter) (pathInfo : Str) : Except PyErr Bool :=
  match match_ m a pathInfo [] with
  | .ok _ => .ok true
  | .error .notFound => .ok false
  | .error e => .error e

end Verif.Routing
