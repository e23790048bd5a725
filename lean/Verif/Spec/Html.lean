import Verif.Py
/-! Specification of what counts as markup in an HTML page, independent of the model. -/
namespace Verif.Spec.Html
open Verif

/-- A page is a sequence of texts and tags. -/
inductive Tok where
  | text (s : Str)
  | tag (s : Str)
  | broken (s : Str)
deriving DecidableEq, Repr

/-- Where the reader is: in text, in a tag, in a double-quoted value of a tag. -/
inductive Mode where
  | text | tag | quoted

/-- Split a page into texts and tags: `<` opens a tag, `>` outside of quotes closes it. -/
def scan : Mode → Str → Str → List Tok
  | .text, acc, [] => [.text acc]
  | .tag, acc, [] => [.broken acc]
  | .quoted, acc, [] => [.broken acc]
  | .text, acc, c :: r => if c = '<' then .text acc :: scan .tag [] r else scan .text (acc ++ [c]) r
  | .tag, acc, c :: r =>
    if c = '>' then .tag acc :: scan .text [] r
    else if c = '"' then scan .quoted (acc ++ [c]) r
    else scan .tag (acc ++ [c]) r
  | .quoted, acc, c :: r =>
    if c = '"' then scan .tag (acc ++ [c]) r else scan .quoted (acc ++ [c]) r

/-- The texts and tags of a page. -/
def tokens (page : Str) : List Tok := scan .text [] page

/-- Replace the character references for the five special characters. -/
def unescape : Str → Str
  | '&' :: 'a' :: 'm' :: 'p' :: ';' :: r => '&' :: unescape r
  | '&' :: 'l' :: 't' :: ';' :: r => '<' :: unescape r
  | '&' :: 'g' :: 't' :: ';' :: r => '>' :: unescape r
  | '&' :: 'q' :: 'u' :: 'o' :: 't' :: ';' :: r => '"' :: unescape r
  | '&' :: '#' :: 'x' :: '2' :: '7' :: ';' :: r => '\'' :: unescape r
  | c :: r => c :: unescape r
  | [] => []

end Verif.Spec.Html
