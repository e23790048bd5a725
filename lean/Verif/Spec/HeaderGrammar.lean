import Verif.Py
import Verif.Spec.Quoted
/-! Specification: headers as the RFCs let other programs write them.  Tokens and quoted strings
(RFC 7230 3.2.6), lists (RFC 7230 7), parameters (RFC 7231 3.1.1.1), pairs (RFC 7234 5.2,
RFC 7235 2.1) and entity tags (RFC 7232 2.3). -/
namespace Verif.Spec.Grammar
open Verif Verif.Spec

/-- Optional white space. -/
def Ows (s : Str) : Prop := ∀ c ∈ s, c = ' ' ∨ c = '\t'

/-- A token. -/
def Token (t : Str) : Prop := t ≠ [] ∧ ∀ c ∈ t, IsTChar c

/-- `text` stands for the value: a token for itself, or a quoted string. -/
def Value (text value : Str) : Prop := (Token text ∧ value = text) ∨ QuotedString text value

/-- An element of a list, with white space around it. -/
structure Element where
  before : Str
  text : Str
  value : Str
  after : Str

/-- The element is a token or a quoted string. -/
def Element.Ok (e : Element) : Prop := Ows e.before ∧ Ows e.after ∧ Value e.text e.value

/-- A list: elements with commas between them, none of them empty. -/
def listText (es : List Element) : Str := Py.join s%"," (es.map fun e => e.before ++ e.text ++ e.after)

/-- A directive or parameter in a list: a name, perhaps with a value. -/
structure Pair where
  before : Str
  name : Str
  value : Option (Str × Str)
  after : Str

/-- The name is a token, and so is the value or it is a quoted string. -/
def Pair.Ok (p : Pair) : Prop :=
  Ows p.before ∧ Ows p.after ∧ Token p.name ∧ ∀ x, p.value = some x → Value x.1 x.2

/-- What stands for the pair. -/
def Pair.text (p : Pair) : Str :=
  p.before ++ (p.name ++ (match p.value with | none => [] | some x => '=' :: x.1)) ++ p.after

/-- A list of pairs. -/
def dictText (ps : List Pair) : Str := Py.join s%"," (ps.map Pair.text)

/-- A quoted string in which only quotes and backslashes are escaped. -/
inductive QPlain : Str → Str → Prop
  | nil : QPlain [] []
  | plain (c : Char) (b v : Str) (h1 : c ≠ '"') (h2 : c ≠ '\\') : QPlain b v → QPlain (c :: b) (c :: v)
  | esc (c : Char) (b v : Str) (h : c = '"' ∨ c = '\\') : QPlain b v → QPlain ('\\' :: c :: b) (c :: v)

/-- A parameter behind a semicolon. -/
structure Param where
  before : Str
  name : Str
  text : Str
  value : Str
  after : Str

/-- The name is a token, and so is the value or it is a quoted string; white space stands behind
quoted strings only. -/
def Param.Ok (p : Param) : Prop :=
  Ows p.before ∧ Token p.name ∧
    ((Token p.text ∧ p.value = p.text ∧ p.after = []) ∨
      (Ows p.after ∧ ∃ b, p.text = '"' :: (b ++ ['"']) ∧ QPlain b p.value))

/-- A media type or disposition: a name without separators, and parameters. -/
def optionsText (before name after : Str) (ps : List Param) : Str :=
  before ++ (name ++ (after ++ ps.flatMap fun p => ';' :: (p.before ++ (p.name ++ '=' :: (p.text ++ p.after)))))

/-- An entity tag: whether it is weak, what stands between the quotes, and the white space before
and after the comma behind it. -/
structure TagItem where
  weak : Bool
  tag : Str
  before : Str
  after : Str

/-- The tag is not empty and has no quotes, spaces and control characters. -/
def TagItem.Ok (t : TagItem) : Prop :=
  t.tag ≠ [] ∧ (∀ c ∈ t.tag, c ≠ '"' ∧ 33 ≤ c.toNat) ∧ Ows t.before ∧ Ows t.after

/-- What stands for the tag. -/
def TagItem.text (t : TagItem) : Str := (if t.weak then s%"W/" else []) ++ '"' :: (t.tag ++ ['"'])

/-- A list of entity tags. -/
def tagsText : List TagItem → Str
  | [] => []
  | [t] => t.text
  | t :: u :: ts => t.text ++ (t.before ++ ',' :: (t.after ++ tagsText (u :: ts)))

end Verif.Spec.Grammar
