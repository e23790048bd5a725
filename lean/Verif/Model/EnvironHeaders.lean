import Verif.Model.Headers
import Verif.Dict
/-!
Model of `EnvironHeaders` (`/repo/verktyg/wsgi.py:279-321`), the headers of a request as a
view of its environ.  `upper`, `lower` and `title` stand for the methods of `str`.  The environ
is the list of its text entries; entries that are not text have keys that are no headers.
-/
namespace Verif.EnvironHeaders
open Verif

section
variable (upper lower title : Str → Str)

/-- The key of the environ a header name is looked up under, wsgi.py:295-298. -/
def envKey (key : Str) : Str :=
  let k := Py.replace s%"-" s%"_" (upper key)
  if k = s%"CONTENT_TYPE" ∨ k = s%"CONTENT_LENGTH" then k else s%"HTTP_" ++ k

/-- `__getitem__(key)`, wsgi.py:292-298; `none` is the `KeyError`.  Values are text, so
`unicodify_header_value` (http/basic.py:117-122) is the identity. -/
def getItem (environ : List (Str × Str)) (key : Str) : Option Str := Dict.get environ (envKey upper key)

/-- `get(key)`, inherited from http/basic.py:187-224. -/
def get (environ : List (Str × Str)) (key : Str) : Option Str := getItem upper environ key

/-- `key in headers`, inherited from http/basic.py:340-346. -/
def contains (environ : List (Str × Str)) (key : Str) : Bool := (getItem upper environ key).isSome

/-- What `__iter__` yields for one entry of the environ, wsgi.py:306-318. -/
def item (p : Str × Str) : Option (Str × Str) :=
  if s%"HTTP_".isPrefixOf p.1 = true ∧ p.1 ≠ s%"HTTP_CONTENT_TYPE" ∧ p.1 ≠ s%"HTTP_CONTENT_LENGTH" then
    some (title (Py.replace s%"_" s%"-" (p.1.drop 5)), p.2)
  else if p.1 = s%"CONTENT_TYPE" ∨ p.1 = s%"CONTENT_LENGTH" then
    some (title (Py.replace s%"_" s%"-" p.1), p.2)
  else none

/-- `__iter__`, wsgi.py:305-318. -/
def iter (environ : List (Str × Str)) : List (Str × Str) := environ.filterMap (item title)

/-- `__len__`, wsgi.py:300-303. -/
def len (environ : List (Str × Str)) : Nat := (iter title environ).length

/-- `getlist(key)`, inherited from http/basic.py:226-255: it goes over the items. -/
def getlist (environ : List (Str × Str)) (key : Str) : List Str := Headers.getlist lower (iter title environ) key

end
end Verif.EnvironHeaders
