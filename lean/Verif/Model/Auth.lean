import Verif.Model.Quote
import Verif.Dict
/-!
Model of the authorization headers, `/repo/verktyg/http/auth.py`.
-/
namespace Verif.Auth
open Verif Verif.Quote

/-- `wsgi_to_bytes(text)`, `/repo/verktyg/http/basic.py:49-55`. -/
def wsgiToBytes : Str → Except PyErr Bytes
  | [] => .ok []
  | c :: r =>
    if c.toNat < 256 then
      match wsgiToBytes r with
      | .error e => .error e
      | .ok b => .ok (UInt8.ofNat c.toNat :: b)
    else .error .unicodeError

/-- `bytes_to_wsgi(data)`, basic.py:58-63. -/
def bytesToWsgi (b : Bytes) : Str := b.map fun x => Char.ofNat x.toNat

/-- White space for `bytes.split`.  Used for auth.py:76-112. -/
def isSpaceB (c : UInt8) : Bool := c == 32 || (9 ≤ c && c ≤ 13)

/-- `data.split(None, 1)` unpacked into two values; `none` where unpacking raises `ValueError`.
Used for auth.py:76-112. -/
def splitWsB (v : Bytes) : Option (Bytes × Bytes) :=
  let s := v.dropWhile isSpaceB
  let rest := (s.dropWhile (fun c => !isSpaceB c)).dropWhile isSpaceB
  if rest = [] then none else some (s.takeWhile (fun c => !isSpaceB c), rest)

/-- `bytes.lower()`.  Used for auth.py:76-112. -/
def lowerB (b : Bytes) : Bytes := b.map fun c => if 65 ≤ c && c ≤ 90 then c + 32 else c

/-! ### `base64.b64decode` (CPython 3.6, `binascii.a2b_base64`) -/

/-- `table_a2b_base64`; the padding character is handled by the callers.
Used for auth.py:95-103. -/
def b64val (c : UInt8) : Option Nat :=
  if 65 ≤ c && c ≤ 90 then some (c.toNat - 65)
  else if 97 ≤ c && c ≤ 122 then some (c.toNat - 71)
  else if 48 ≤ c && c ≤ 57 then some (c.toNat + 4)
  else if c = 43 then some 62
  else if c = 47 then some 63
  else none

/-- `binascii_find_valid(…, 1)`, applied to the text after a padding character: the next
character of the alphabet, where padding counts.  Used for auth.py:95-103. -/
def nextValid : Bytes → Option UInt8
  | [] => none
  | c :: r => if c = 61 || (b64val c).isSome then some c else nextValid r

/-- The loop of `a2b_base64`; `quad`, `left` and `bits` are its variables `quad_pos`,
`leftchar` and `leftbits`.  `none` is the error "Incorrect padding".  Used for auth.py:95-103. -/
def a2b (quad left bits : Nat) : Bytes → Option Bytes
  | [] => if bits ≠ 0 then none else some []
  | c :: r =>
    if c = 61 then
      if quad < 2 ∨ (quad = 2 ∧ nextValid r ≠ some 61) then a2b quad left bits r
      else some []
    else
      match b64val c with
      | none => a2b quad left bits r
      | some v =>
        if bits + 6 ≥ 8 then
          (a2b ((quad + 1) % 4) ((left * 64 + v) % 2 ^ (bits + 6 - 8)) (bits + 6 - 8) r).map
            (UInt8.ofNat ((left * 64 + v) / 2 ^ (bits + 6 - 8)) :: ·)
        else a2b ((quad + 1) % 4) (left * 64 + v) (bits + 6) r

/-- `base64.b64decode(data)`.  Used for auth.py:95-103. -/
def b64decode (b : Bytes) : Option Bytes := a2b 0 0 0 b

/-- `data.split(b':', 1)` unpacked into two values.  Used for auth.py:95-103. -/
def splitColon : Bytes → Option (Bytes × Bytes)
  | [] => none
  | c :: r => if c = 58 then some ([], r) else (splitColon r).map fun p => (c :: p.1, p.2)

/-- `Authorization`, auth.py:18-32: the attribute `type` and the dictionary. -/
structure Authorization where
  type : Str
  data : List (Str × Option Str)
deriving DecidableEq

/-- Truth of `auth_map.get(key)`.  Used for auth.py:104-112. -/
def truthy (m : List (Str × Option Str)) (key : Str) : Bool :=
  match Dict.get m key with
  | some (some v) => v ≠ []
  | _ => false

/-- The keys of the loop in auth.py:105. -/
def required : List Str := [s%"username", s%"realm", s%"nonce", s%"uri", s%"response"]

/-- The basic branch, auth.py:95-103. -/
def parseBasic (info : Bytes) : Option Authorization :=
  match b64decode info with
  | none => none
  | some b =>
    match splitColon b with
    | none => none
    | some (u, p) => some ⟨s%"basic",
        [(s%"username", some (bytesToWsgi u)), (s%"password", some (bytesToWsgi p))]⟩

/-- The digest branch, auth.py:104-112. -/
def parseDigest (info : Bytes) : Option Authorization :=
  let m := parseDictHeader (bytesToWsgi info)
  if !required.all (Dict.has m) then none
  else if Dict.has m s%"qop" && (!truthy m s%"nc" || !truthy m s%"cnonce") then none
  else some ⟨s%"digest", m⟩

/-- `parse_authorization_header(value)`, auth.py:76-112; the empty text stands for `None` too. -/
def parseAuthorization (value : Str) : Except PyErr (Option Authorization) :=
  if value = [] then .ok none
  else
    match wsgiToBytes value with
    | .error e => .error e
    | .ok b =>
      match splitWsB b with
      | none => .ok none
      | some (t, info) =>
        if lowerB t = b%"basic" then .ok (parseBasic info)
        else if lowerB t = b%"digest" then .ok (parseDigest info)
        else .ok none

/-! ### `WWW-Authenticate` -/

/-- The stored values of a `WWWAuthenticate`; `none` is Python's `None`, which the parser stores
for a directive without `=`.  Models auth.py:134-144. -/
abbrev WWW := List (Str × Option Str)

/-- The key of the scheme.  Used for auth.py:140-144. -/
def typeKey : Str := s%"__auth_type__"

/-- `_require_quoting`, auth.py:138. -/
def requireQuoting : List Str := [s%"domain", s%"nonce", s%"opaque", s%"realm", s%"qop"]

/-- `WWWAuthenticate(auth_type, values)`, auth.py:140-144; the empty text stands for `None`. -/
def newWWW (authType : Str) (values : WWW) : WWW :=
  if authType = [] then values else Dict.set values typeKey (some authType)

/-- `str(value)` for a stored value.  Used for auth.py:175-184. -/
def strOf : Option Str → Str
  | none => s%"None"
  | some v => v

/-- `d.pop('__auth_type__', None) or 'basic'`, auth.py:178. -/
def schemeOf (w : WWW) : Str :=
  match Dict.get w typeKey with
  | some (some t) => if t = [] then s%"basic" else t
  | _ => s%"basic"

/-- `to_header`, auth.py:175-184; `title` is `str.title`. -/
def wwwToHeader (title : Str → Str) (w : WWW) : Str :=
  title (schemeOf w) ++ s%" " ++ Py.join s%", " ((Dict.del w typeKey).map fun kv =>
    kv.1 ++ s%"=" ++ quoteHeaderValue (strOf kv.2) [] (!requireQuoting.contains kv.1))

/-- `value.split(None, 1)` on text, unpacked into two values.  Used for auth.py:256-277. -/
def splitWs (v : Str) : Option (Str × Str) :=
  let s := v.dropWhile Py.isSpace
  let rest := (s.dropWhile (fun c => !Py.isSpace c)).dropWhile Py.isSpace
  if rest = [] then none else some (s.takeWhile (fun c => !Py.isSpace c), rest)

/-- `parse_www_authenticate_header(value)`, auth.py:256-277. -/
def parseWWW (lower : Str → Str) (value : Str) : WWW :=
  if value = [] then []
  else
    match splitWs value with
    | none => newWWW (lower (Py.strip value)) []
    | some (t, info) => newWWW (lower t) (parseDictHeader info)

/-- `set_basic(realm)`, auth.py:146-151. -/
def setBasic (realm : Str) : WWW := [(typeKey, some s%"basic"), (s%"realm", some realm)]

/-- `set_digest(realm, nonce, qop, opaque, algorithm, stale)`, auth.py:153-173. -/
def setDigest (realm nonce : Str) (qop : List Str) (opaq algorithm : Option Str) (stale : Bool) : WWW :=
  [(typeKey, some s%"digest"), (s%"realm", some realm), (s%"nonce", some nonce),
    (s%"qop", some (dumpHeaderList qop))] ++
  (if stale then [(s%"stale", some s%"TRUE")] else []) ++
  (match opaq with | none => [] | some o => [(s%"opaque", some o)]) ++
  (match algorithm with | none => [] | some a => [(s%"algorithm", some a)])

/-- Setting an `auth_property`, auth.py:115-131. -/
def setProp (w : WWW) (name : Str) : Option Str → WWW
  | none => Dict.del w name
  | some v => Dict.set w name (some v)

/-- Reading one, auth.py:115-131. -/
def getProp (w : WWW) (name : Str) : Option Str := (Dict.get w name).join

/-- `stale`, auth.py:234-237. -/
def getStale (lower : Str → Str) (w : WWW) : Option Bool :=
  match getProp w s%"stale" with
  | none => none
  | some v => some (lower v = s%"true")

/-- Used for auth.py:239-243. -/
def setStale (w : WWW) : Option Bool → WWW
  | none => Dict.del w s%"stale"
  | some b => Dict.set w s%"stale" (some (if b then s%"TRUE" else s%"FALSE"))

end Verif.Auth
