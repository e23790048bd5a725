import Verif.PyMore
/-!
Model of `secure_filename` (`/repo/verktyg/utils.py:139-182`).
-/
namespace Verif.Utils
open Verif Verif.Py

/-- Worker of `s.split()`.  Used for utils.py:169-171. -/
def wordsGo (cur : Str) : Str → List Str
  | [] => if cur = [] then [] else [cur]
  | c :: cs =>
    if isSpace c then (if cur = [] then wordsGo [] cs else cur :: wordsGo [] cs)
    else wordsGo (cur ++ [c]) cs

/-- `s.split()`: the words between runs of white space.  Used for utils.py:169-171. -/
def words (s : Str) : List Str := wordsGo [] s

/-- The characters kept by `_filename_ascii_strip_re`, utils.py:20. -/
def keeps (c : Char) : Bool :=
  ('A' ≤ c && c ≤ 'Z') || ('a' ≤ c && c ≤ 'z') || ('0' ≤ c && c ≤ '9') || c = '_' || c = '.' || c = '-'

/-- `_windows_device_files`, utils.py:21-24. -/
def devices : List Str :=
  [s%"CON", s%"AUX", s%"COM1", s%"COM2", s%"COM3", s%"COM4", s%"LPT1", s%"LPT2", s%"LPT3", s%"PRN", s%"NUL"]

/-- `filename.split('.')[0].upper()` for ASCII names, utils.py:178. -/
def stem (s : Str) : Str := ((split1 '.' s).1).map Char.toUpper

/-- utils.py:160-168: ASCII only, path separators become blanks.  `nfkd` is the Unicode
normalisation; `nt` tells whether the platform is Windows (separators `\` and `/`). -/
def unslash (nt : Bool) (s : Str) : Str :=
  s.map fun c => if c = '/' ∨ (nt ∧ c = '\\') then ' ' else c

/-- utils.py:169-171. -/
def squeeze (s : Str) : Str :=
  stripP (fun c => c = '.' || c = '_') ((join ['_'] (words s)).filter keeps)

/-- `secure_filename`, utils.py:139-182, of a `str`. -/
def secureFilename (nt : Bool) (nfkd : Str → Str) (s : Str) : Str :=
  let f := squeeze (unslash nt ((nfkd s).filter fun c => c.toNat < 128))
  if nt ∧ f ≠ [] ∧ stem f ∈ devices then '_' :: f else f

end Verif.Utils
