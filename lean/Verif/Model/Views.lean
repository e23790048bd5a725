import Verif.Model.Dispatch
import Verif.Model.Response
/-!
Model of `/repo/verktyg/views.py` lines 65-111: views made of classes, and views whose results are sent as JSON.  (`View`
itself is in Dispatch.)
-/
namespace Verif.Views
open Verif Verif.Dispatch Verif.Accept

/-! ### `json.dumps` -/

/-- Keys of dictionaries that `json.dumps` takes.  Floats as keys are left out.  Used for views.py:92-95. -/
inductive Key where
  | str (s : Str)
  | int (i : Int)
  | bool (b : Bool)
  | none
  deriving DecidableEq

/-- What an action can return and `json.dumps` can write.  A finite float is its `repr`; tuples are lists.
Used for views.py:92-95. -/
inductive J where
  | null
  | bool (b : Bool)
  | int (i : Int)
  | float (text : Str)
  | nan
  | inf (neg : Bool)
  | str (s : Str)
  | arr (xs : List J)
  | obj (kvs : List (Key × J))

/-- A hexadecimal digit.  Used for views.py:92-95. -/
def hexDigit (n : Nat) : Char := if n < 10 then Char.ofNat (48 + n) else Char.ofNat (87 + n)

/-- `'\\u{0:04x}'.format(n)`.  Used for views.py:92-95. -/
def uEscape (n : Nat) : Str :=
  ['\\', 'u', hexDigit (n / 4096 % 16), hexDigit (n / 256 % 16), hexDigit (n / 16 % 16), hexDigit (n % 16)]

/-- One character in `py_encode_basestring_ascii`, as `ensure_ascii` is not turned off.  Used for views.py:92-95. -/
def escape (c : Char) : Str :=
  if c = '"' then ['\\', '"']
  else if c = '\\' then ['\\', '\\']
  else if c = '\n' then ['\\', 'n']
  else if c = '\r' then ['\\', 'r']
  else if c = '\t' then ['\\', 't']
  else if c.toNat = 12 then ['\\', 'f']
  else if c.toNat = 8 then ['\\', 'b']
  else if 32 ≤ c.toNat ∧ c.toNat ≤ 126 then [c]
  else if c.toNat < 0x10000 then uEscape c.toNat
  else uEscape (0xd800 + (c.toNat - 0x10000) / 0x400) ++ uEscape (0xdc00 + (c.toNat - 0x10000) % 0x400)

/-- A text with its quotes.  Used for views.py:92-95. -/
def quoted (s : Str) : Str := '"' :: (s.flatMap escape ++ ['"'])

/-- The text of a key.  Used for views.py:92-95. -/
def Key.text : Key → Str
  | .str s => s
  | .int i => Py.intStr i
  | .bool b => if b then s%"true" else s%"false"
  | .none => s%"null"

/-- What is written between items, before the first and after the last, and between keys and values.
Used for views.py:92-95. -/
structure Style where
  line : Nat → Str
  colon : Str

/-- `indent=4`, views.py:93. -/
def indented : Style := ⟨fun n => '\n' :: List.replicate (4 * n) ' ', s%": "⟩

/-- `separators=(',', ':')`, views.py:95. -/
def compact : Style := ⟨fun _ => [], s%":"⟩

mutual
/-- `json.dumps` of a value at some depth.  Used for views.py:92-95. -/
def dumps (st : Style) : Nat → J → Str
  | _, .null => s%"null"
  | _, .bool b => if b then s%"true" else s%"false"
  | _, .int i => Py.intStr i
  | _, .float t => t
  | _, .nan => s%"NaN"
  | _, .inf neg => if neg then s%"-Infinity" else s%"Infinity"
  | _, .str s => quoted s
  | _, .arr [] => s%"[]"
  | l, .arr (x :: xs) => '[' :: (st.line (l + 1) ++ (dumps st (l + 1) x ++ (tailItems st (l + 1) xs ++ (st.line l ++ s%"]"))))
  | _, .obj [] => s%"{}"
  | l, .obj ((k, v) :: kvs) =>
    '{' :: (st.line (l + 1) ++ (quoted k.text ++ (st.colon ++ (dumps st (l + 1) v ++
      (tailMembers st (l + 1) kvs ++ (st.line l ++ s%"}"))))))
/-- The items after the first.  Used for views.py:92-95. -/
def tailItems (st : Style) : Nat → List J → Str
  | _, [] => []
  | l, x :: xs => ',' :: (st.line l ++ (dumps st l x ++ tailItems st l xs))
/-- The members after the first.  Used for views.py:92-95. -/
def tailMembers (st : Style) : Nat → List (Key × J) → Str
  | _, [] => []
  | l, (k, v) :: kvs => ',' :: (st.line l ++ (quoted k.text ++ (st.colon ++ (dumps st l v ++ tailMembers st l kvs))))
end

/-! ### Views -/

/-- What the action of a JSON view can return: a response, `None`, something `json.dumps` can write, or something
else.  Used for views.py:81-97. -/
inductive Result where
  | response (r : Response.Resp)
  | none
  | value (v : J)
  | other

/-- `JsonView.__call__` for the result of the action, views.py:81-97.  `debug` is the attribute of the application, if
it has one. -/
def jsonResponse (cfg : Response.Cfg) (debug : Option Bool) : Result → Except PyErr Response.Resp
  | .response r => .ok r
  | .none => Response.init cfg [] (some s%"text/plain; charset=utf-8") 204 false .none
  | .value v =>
    match debug with
    | none => .error .attributeError
    | some d =>
      Response.init cfg [] (some s%"application/json") 200 false (.data (.text (dumps (if d then indented else compact) 0 v)))
  | .other =>
    match debug with
    | none => .error .attributeError
    | some _ => .error .typeError

/-- The representation of a `JsonView`, views.py:75-79. -/
def jsonRep (id : Nat) (qs : Flt) : Rep :=
  { id := id, contentType := some (s%"application/json", none), language := none, charset := none, qs := qs }

/-- `expose_json(dispatcher, name, methods, qs)(f)`, views.py:107-111. -/
def exposeJson (d : Disp) (name : Str) (ms : Methods) (id : Nat) (qs : Flt) : Disp :=
  d.addAll (viewBindings name ms (jsonRep id qs))

/-- `expose(dispatcher, name, ...)(f)`, views.py:100-104. -/
def expose (d : Disp) (name : Str) (ms : Methods) (rep : Rep) : Disp := d.addAll (viewBindings name ms rep)

/-- `ClassView.get_bindings`, views.py:65-71: `attrs` are the attributes of the instance, with their actions. -/
def classBindings (name : Str) (attrs : List (Str × Rep)) : List Binding :=
  [s%"GET", s%"HEAD", s%"POST", s%"PUT", s%"DELETE"].filterMap fun m => (Dict.get attrs m).map fun rep => ⟨name, m, rep⟩

end Verif.Views
