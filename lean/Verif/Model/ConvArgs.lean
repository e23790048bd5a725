import Verif.Model.Routing
import Verif.Model.Options
/-!
Model of the arguments of converters in rules, `/repo/verktyg/routing.py` lines 120-170, 573-581 and 986-996:
how they are read, and which converter they give.
-/
namespace Verif.Routing
open Verif

/-- What the interpreter knows of text: `\w`, the values of decimal digits (`\d`), `int(s)` and `int(f)` for a
float given by its text, and floats.  `int` is `none` where `ValueError` is raised.
Used for routing.py:120-147. -/
structure ArgLib where
  word : Char → Bool
  dec : Char → Option Nat
  int : Str → Option Int
  trunc : Str → Except PyErr Int
  floats : FloatLib

/-- An argument of a converter; a float is given by its text.  Used for routing.py:134-151. -/
inductive Arg where
  | none
  | bool (b : Bool)
  | int (i : Int)
  | float (s : Str)
  | str (s : Str)
deriving DecidableEq, Repr

/-- `\d`.  Used for routing.py:120-131. -/
def ArgLib.digit (L : ArgLib) (c : Char) : Bool := (L.dec c).isSome

/-- `[urUR]`.  Used for routing.py:120-131. -/
def isPrefix (c : Char) : Bool := c == 'u' || c == 'r' || c == 'U' || c == 'R'

/-- The group `stringval` of `_converter_args_re`.  Used for routing.py:120-131. -/
def stringRe : Re Char :=
  .alt (Re.cat [Re.lit s%"\"", .star false (.cls (· != '"')), Re.lit s%"\""])
    (Re.cat [Re.lit s%"'", .star true (.cls (· != '\'')), Re.lit s%"'"])

/-- The group `value` of `_converter_args_re`.  Used for routing.py:120-131. -/
def valueRe (L : ArgLib) : Re Char :=
  Re.alts [Re.lit s%"True", Re.lit s%"False",
    Re.cat [Re.plus (.cls L.digit), .cls dot, Re.plus (.cls L.digit)],
    Re.cat [Re.plus (.cls L.digit), .cls dot],
    Re.plus (.cls L.digit), Re.plus (.cls L.word),
    .seq (Re.opt (.cls isPrefix)) (.grp 2 stringRe)]

/-- `_converter_args_re`, routing.py:120-131.  Groups: 0 name, 1 value, 2 stringval. -/
def argRe (L : ArgLib) : Re Char :=
  Re.cat [Re.opt (Re.cat [.grp 0 (Re.plus (.cls L.word)), .star true (.cls Py.isSpace), Re.lit s%"=",
      .star true (.cls Py.isSpace)]),
    .grp 1 (valueRe L), .star true (.cls Py.isSpace), Re.lit s%","]

/-- `_pythonize`, routing.py:141-151.  (The text is never empty.) -/
def pythonize (L : ArgLib) (value : Str) : Arg :=
  if value = s%"None" then .none
  else if value = s%"True" then .bool true
  else if value = s%"False" then .bool false
  else match L.int value with
    | some i => .int i
    | none => match L.floats.canon value with
      | some f => .float f
      | none =>
        if value.head? = value.getLast? ∧ (value.head? = some '"' ∨ value.head? = some '\'') then
          .str (value.tail.dropLast)
        else .str value

/-- The value of one argument, routing.py:159-163. -/
def argValue (L : ArgLib) (m : Re.M Char) : Arg :=
  pythonize L (match m.group 2 with | some s => s | none => (m.group 1).getD [])

/-- One round of the loop, routing.py:164-168. -/
def argStep (L : ArgLib) (acc : List Arg × List (Str × Arg)) (m : Re.M Char) : List Arg × List (Str × Arg) :=
  match m.group 0 with
  | none => (acc.1 ++ [argValue L m], acc.2)
  | some [] => (acc.1 ++ [argValue L m], acc.2)
  | some name => (acc.1, Dict.set acc.2 name (argValue L m))

/-- `parse_converter_args`, routing.py:154-170. -/
def parseConverterArgs (L : ArgLib) (argstr : Str) : List Arg × List (Str × Arg) :=
  (Options.findIter (argRe L) ((argstr ++ s%",").length + 1) none (argstr ++ s%",")).foldl (argStep L) ([], [])

/-- The binding of arguments to the parameters `params` of a function (after `self` and `router`): `TypeError`
for too many of them, for unknown keywords, and for a parameter given twice.
Used for routing.py:573-581. -/
def bindArgs (params : List Str) (args : List Arg) (kwargs : List (Str × Arg)) : Except PyErr (List (Str × Arg)) :=
  if params.length < args.length then .error .typeError
  else if kwargs.any (fun kv => !(params.drop args.length).contains kv.1) then .error .typeError
  else .ok (params.zip args ++ kwargs)

/-- The value of a parameter, `None` if it is neither given nor has another default.
Used for routing.py:841, 895 and 963. -/
def param (bound : List (Str × Arg)) (name : Str) (default : Arg := .none) : Arg :=
  match Dict.get bound name with
  | some a => a
  | none => default

/-- `int(x)`.  Used for routing.py:843-853. -/
def intArg (L : ArgLib) : Arg → Except PyErr Int
  | .none => .error .typeError
  | .bool b => .ok (if b then 1 else 0)
  | .int i => .ok i
  | .float s => L.trunc s
  | .str s => match L.int s with
    | some i => .ok i
    | none => .error .valueError

/-- `[^/]{lo,hi}`, written with the count `txt`: a count with a minus sign is plain text to `re`; with
`hi < lo` the pattern is refused.  Simplifications: it is refused here already, though `re.compile` does so
only for routes that are matched; counts above `2^32` are not refused.  Used for routing.py:843-854. -/
def countRe (lo : Int) (hi : Option Int) (txt : Str) : Except PyErr (Re Char) :=
  if lo < 0 ∨ hi.any (· < 0) then .ok (.seq (.cls noSlash) (Re.lit txt))
  else if hi.any (· < lo) then .error .runtimeError
  else .ok (rep (.cls noSlash) lo.toNat (hi.map Int.toNat))

/-- The pattern of `UnicodeConverter(router, minlength, maxlength, length)`, routing.py:841-854. -/
def stringPattern (L : ArgLib) (minlength maxlength length : Arg) : Except PyErr (Re Char) :=
  if length ≠ .none then
    match intArg L length with
    | .error e => .error e
    | .ok n => countRe n (some n) (s%"{" ++ Py.intStr n ++ s%"}")
  else if maxlength = .none then
    match intArg L minlength with
    | .error e => .error e
    | .ok lo => countRe lo none (s%"{" ++ Py.intStr lo ++ s%",}")
  else
    match intArg L maxlength with
    | .error e => .error e
    | .ok hi =>
      match intArg L minlength with
      | .error e => .error e
      | .ok lo => countRe lo (some hi) (s%"{" ++ Py.intStr lo ++ s%"," ++ Py.intStr hi ++ s%"}")

/-- `UnicodeConverter(router, *args, **kwargs)`, routing.py:841-854. -/
def newString (L : ArgLib) (args : List Arg) (kwargs : List (Str × Arg)) : Except PyErr Converter :=
  match bindArgs [s%"minlength", s%"maxlength", s%"length"] args kwargs with
  | .error e => .error e
  | .ok b =>
    match stringPattern L (param b s%"minlength" (.int 1)) (param b s%"maxlength") (param b s%"length") with
    | .error e => .error e
    | .ok re => .ok { stringConv 0 none with re := re }

/-- The items of `AnyConverter`: `re.escape` takes text only.  Used for routing.py:869-871. -/
def anyItems : List Arg → Except PyErr (List Str)
  | [] => .ok []
  | .str s :: l =>
    match anyItems l with
    | .error e => .error e
    | .ok ss => .ok (s :: ss)
  | _ :: _ => .error .typeError

/-- `AnyConverter(router, *args, **kwargs)`, routing.py:869-871. -/
def newAny (args : List Arg) (kwargs : List (Str × Arg)) : Except PyErr Converter :=
  if kwargs ≠ [] then .error .typeError
  else match anyItems args with
    | .error e => .error e
    | .ok items => .ok (anyConv items)

/-- A number of digits.  Simplification: other arguments than numbers, `None` and `False` are refused here;
the code fails or misbehaves later with them.  Used for routing.py:895-899. -/
def digitsArg : Arg → Except PyErr Nat
  | .none => .ok 0
  | .bool false => .ok 0
  | .int (.ofNat n) => .ok n
  | _ => .error .typeError

/-- A bound of `IntegerConverter`.  Simplification: floats and texts are refused here; the code compares with
floats, and fails later with texts.  Used for routing.py:895-899. -/
def boundArg : Arg → Except PyErr (Option Int)
  | .none => .ok none
  | .bool b => .ok (some (if b then 1 else 0))
  | .int i => .ok (some i)
  | _ => .error .typeError

/-- `IntegerConverter(router, *args, **kwargs)`, routing.py:895-899 and 924-943. -/
def newInt (L : ArgLib) (args : List Arg) (kwargs : List (Str × Arg)) : Except PyErr Converter :=
  match bindArgs [s%"fixed_digits", s%"min", s%"max"] args kwargs with
  | .error e => .error e
  | .ok b =>
    match digitsArg (param b s%"fixed_digits" (.int 0)), boundArg (param b s%"min"), boundArg (param b s%"max") with
    | .ok n, .ok lo, .ok hi => .ok (intConv L.dec n lo hi)
    | _, _, _ => .error .typeError

/-- A bound of `FloatConverter`.  Simplifications: texts and booleans are refused here; an integer is compared
as the nearest float.  Used for routing.py:963-964. -/
def floatBound (F : FloatLib) : Arg → Except PyErr (Option Str)
  | .none => .ok none
  | .float s => .ok (some s)
  | .int i => match F.ofInt i with
    | .ok s => .ok (some s)
    | .error e => .error e
  | _ => .error .typeError

/-- `FloatConverter(router, *args, **kwargs)`, routing.py:946-964. -/
def newFloat (L : ArgLib) (args : List Arg) (kwargs : List (Str × Arg)) : Except PyErr Converter :=
  match bindArgs [s%"min", s%"max"] args kwargs with
  | .error e => .error e
  | .ok b =>
    match floatBound L.floats (param b s%"min"), floatBound L.floats (param b s%"max") with
    | .ok lo, .ok hi => .ok (floatConv L.floats L.dec lo hi)
    | _, _ => .error .typeError

/-- A converter without parameters.  Used for routing.py:808-809, 874-885 and 967-984. -/
def newPlain (c : Converter) (args : List Arg) (kwargs : List (Str × Arg)) : Except PyErr Converter :=
  if args = [] ∧ kwargs = [] then .ok c else .error .typeError

/-- `get_converter`, routing.py:573-581, with `DEFAULT_CONVERTERS`, routing.py:987-996. -/
def getConverter (L : ArgLib) (name : Str) (args : List Arg) (kwargs : List (Str × Arg)) : Except PyErr Converter :=
  if name = s%"default" ∨ name = s%"string" then newString L args kwargs
  else if name = s%"any" then newAny args kwargs
  else if name = s%"path" then newPlain pathConv args kwargs
  else if name = s%"int" then newInt L args kwargs
  else if name = s%"float" then newFloat L args kwargs
  else if name = s%"uuid" then newPlain uuidConv args kwargs
  else .error .lookupError

/-- The converter of a variable in a rule, routing.py:606-612. -/
def defaultConv (L : ArgLib) (name : Str) (args : Option Str) : Except PyErr Converter :=
  match args with
  | some s => getConverter L name (parseConverterArgs L s).1 (parseConverterArgs L s).2
  | none => getConverter L name [] []

end Verif.Routing
