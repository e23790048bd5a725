import Verif.Py
/-!
Model of header value quoting and of list and dictionary headers
(`/repo/verktyg/http/basic.py`).
-/
namespace Verif.Quote
open Verif

/-- `_token_chars`, basic.py:26-29. -/
def tokenChars : Str :=
  s%"!#$%&'*+-.0123456789ABCDEFGHIJKLMNOPQRSTUVWXYZ^_`abcdefghijklmnopqrstuvwxyz|~"

/-- The quoting branch of `quote_header_value`, basic.py:83. -/
def quoteAlways (value : Str) : Str :=
  s%"\"" ++ Py.replace s%"\"" s%"\\\"" (Py.replace s%"\\" s%"\\\\" value) ++ s%"\""

/-- `quote_header_value(value, extra_chars, allow_token)`, basic.py:66-83, for `str`
values.  Simplification: the `bytes`/`str()` coercions (76-78) are the caller's. -/
def quoteHeaderValue (value : Str) (extraChars : Str := []) (allowToken : Bool := true) : Str :=
  if allowToken && value.all (fun c => tokenChars.contains c || extraChars.contains c) then
    value
  else quoteAlways value

/-- `unquote_header_value(value, is_filename)`, basic.py:86-108. -/
def unquoteHeaderValue (value : Str) (isFilename : Bool := false) : Str :=
  if value.head? = some '"' ∧ value.getLast? = some '"' then
    let inner := Py.slice1m1 value
    if !isFilename || inner.take 2 ≠ s%"\\\\" then
      Py.replace s%"\\\"" s%"\"" (Py.replace s%"\\\\" s%"\\" inner)
    else inner
  else value

/-- `dump_header(iterable, allow_token)` for a non-dict iterable, basic.py:553-585. -/
def dumpHeaderList (items : List Str) (allowToken : Bool := true) : Str :=
  Py.join s%", " (items.map (fun x => quoteHeaderValue x [] allowToken))

/-- One entry of the dict branch of `dump_header`, basic.py:573-580. -/
def dumpPair (allowToken : Bool) (kv : Str × Option Str) : Str :=
  match kv.2 with
  | none => kv.1
  | some v => kv.1 ++ s%"=" ++ quoteHeaderValue v [] allowToken

/-- `dump_header(dict, allow_token)`, basic.py:571-585.  A dict is its item list in
iteration order. -/
def dumpHeaderDict (d : List (Str × Option Str)) (allowToken : Bool := true) : Str :=
  Py.join s%", " (d.map (dumpPair allowToken))

/-- One segment of `dump_options_header`, basic.py:545-549. -/
def dumpOption (kv : Str × Option Str) : Str :=
  match kv.2 with
  | none => kv.1
  | some v => kv.1 ++ s%"=" ++ quoteHeaderValue v

/-- `dump_options_header(header, options)`, basic.py:534-550.  The options dict is its
item list in iteration order. -/
def dumpOptionsHeader (header : Option Str) (options : List (Str × Option Str)) : Str :=
  Py.join s%"; " (header.toList ++ options.map dumpOption)

/-- The loop of `urllib.request.parse_http_list` (CPython 3.6), before stripping.
`part`, `escape` and `quote` are its local variables.  Used for basic.py:588-658. -/
def httpListGo (part : Str) (escape quote : Bool) : Str → List Str
  | [] => if part = [] then [] else [part]
  | cur :: rest =>
    if escape then httpListGo (part ++ [cur]) false quote rest
    else if quote then
      if cur = '\\' then httpListGo part true quote rest
      else if cur = '"' then httpListGo (part ++ [cur]) escape false rest
      else httpListGo (part ++ [cur]) escape quote rest
    else if cur = ',' then part :: httpListGo [] escape quote rest
    else if cur = '"' then httpListGo (part ++ [cur]) escape true rest
    else httpListGo (part ++ [cur]) escape quote rest

/-- `urllib.request.parse_http_list`, imported in basic.py:14 as `_parse_list_header`. -/
def parseHttpList (s : Str) : List Str := (httpListGo [] false false s).map Py.strip

/-- `item[:1] == item[-1:] == '"'`, basic.py:614 and 655. -/
def quotedBothEnds (s : Str) : Bool := s.take 1 == s%"\"" && s.getLast?.toList == s%"\""

/-- The unquoting step shared by `parse_list_header` (614-615) and
`parse_dict_header` (655-656): the quotes are cut off *before* calling
`unquote_header_value`.  Used for basic.py:588-617. -/
def unquoteItem (item : Str) : Str :=
  if quotedBothEnds item then unquoteHeaderValue (Py.slice1m1 item) else item

/-- `parse_list_header(value)`, basic.py:588-617. -/
def parseListHeader (value : Str) : List Str := (parseHttpList value).map unquoteItem

/-- `d[k] = v` on a Python dict kept as an item list in insertion order.
Used for basic.py:620-658. -/
def dictSet {α β} [DecidableEq α] (d : List (α × β)) (k : α) (v : β) : List (α × β) :=
  if d.any (fun p => decide (p.1 = k)) then
    d.map (fun p => if p.1 = k then (p.1, v) else p)
  else d ++ [(k, v)]

/-- The loop body of `parse_dict_header`, basic.py:650-657. -/
def parseDictItem (item : Str) : Str × Option Str :=
  match Py.split1 '=' item with
  | (_, none) => (item, none)
  | (name, some value) => (name, some (unquoteItem value))

/-- `parse_dict_header(value)`, basic.py:620-658, for text and `cls=dict`. -/
def parseDictHeader (value : Str) : List (Str × Option Str) :=
  ((parseHttpList value).map parseDictItem).foldl (fun d kv => dictSet d kv.1 kv.2) []

end Verif.Quote
