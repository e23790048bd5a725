import Verif.Model.Quote
import Verif.Regex
/-!
Model of `parse_options_header` (`/repo/verktyg/http/basic.py:31-35, 661-692`).
-/
namespace Verif.Options
open Verif Verif.Re Verif.Quote

/-- `[^"\\]`.  Used for basic.py:31. -/
def plainCh (c : Char) : Bool := c != '"' && c != '\\'

/-- `_quoted_string_re`, basic.py:31: `"[^"\\]*(?:\\.[^"\\]*)*"`. -/
def quotedRe : Re Char :=
  seq (cls (· == '"')) (seq (star true (cls plainCh))
    (seq (star true (seq (cls (· == '\\')) (seq (cls (· != '\n')) (star true (cls plainCh)))))
      (cls (· == '"'))))

/-- `[^\s;=]`.  Used for basic.py:32-35. -/
def keyCh (c : Char) : Bool := !Py.isSpace c && c != ';' && c != '='

/-- `_option_header_piece_re`, basic.py:32-35:
`;\s*(quoted|[^\s;=]+)\s*(?:=\s*(quoted|[^;]+))?\s*`. -/
def pieceRe : Re Char :=
  seq (cls (· == ';')) (seq (star true (cls Py.isSpace))
    (seq (grp 1 (alt quotedRe (plus (cls keyCh))))
      (seq (star true (cls Py.isSpace))
        (seq (opt (seq (cls (· == '=')) (seq (star true (cls Py.isSpace))
            (grp 2 (alt quotedRe (plus (cls (· != ';'))))))))
          (star true (cls Py.isSpace))))))

/-- `pattern.finditer(s)`: scan for the leftmost match, continue after it.  (The pattern
never matches the empty string.).  Used for basic.py:677-683. -/
def findIter (r : Re Char) : Nat → Option Char → Str → List (M Char)
  | 0, _, _ => []
  | n + 1, prev, s =>
    match first r prev s with
    | some m => m :: findIter r n (after prev m.txt) m.rest
    | none => match s with
      | [] => []
      | c :: cs => findIter r n (some c) cs

/-- `_tokenize`, basic.py:677-683. -/
def tokenize (s : Str) : List (Str × Option Str) :=
  (findIter pieceRe (s.length + 1) none s).map fun m =>
    let key := unquoteHeaderValue ((m.group 1).getD [])
    (key, (m.group 2).map fun v => unquoteHeaderValue v (key = s%"filename"))

/-- `parse_options_header(value)`, basic.py:661-692.  `next()` on an exhausted iterator
raises `StopIteration`. -/
def parseOptionsHeader (value : Str) : Except PyErr (Str × List (Str × Option Str)) :=
  if value = [] then .ok ([], [])
  else match tokenize (';' :: value) with
    | [] => .error .stopIteration
    | (name, _) :: rest => .ok (name, rest.foldl (fun d kv => dictSet d kv.1 kv.2) [])

end Verif.Options
