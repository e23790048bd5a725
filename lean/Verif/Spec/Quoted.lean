import Verif.Py
/-!
Specification side of header quoting, independent of the model: RFC 7230 tokens and
quoted-strings.
-/
namespace Verif.Spec
open Verif

/-- RFC 7230 `tchar`. -/
def IsTChar (c : Char) : Prop :=
  c.isAlphanum = true ∨ c ∈ ['!', '#', '$', '%', '&', '\'', '*', '+', '-', '.', '^', '_', '`', '|', '~']

/-- `QText body v`: `body` is the inside of an RFC 7230 quoted-string whose decoded
value is `v`.  A bare quote or a bare backslash is not allowed in `body`, so scanning
for the closing quote cannot stop inside it. -/
inductive QText : Str → Str → Prop
  | nil : QText [] []
  | plain (c : Char) (b v : Str) (h1 : c ≠ '"') (h2 : c ≠ '\\') :
      QText b v → QText (c :: b) (c :: v)
  | esc (c : Char) (b v : Str) : QText b v → QText ('\\' :: c :: b) (c :: v)

/-- `QuotedString s v`: `s` is one complete quoted-string denoting `v`. -/
def QuotedString (s v : Str) : Prop := ∃ body, s = ['"'] ++ body ++ ['"'] ∧ QText body v

end Verif.Spec
