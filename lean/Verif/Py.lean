/-
Python primitives shared by all models.

These are not definitions from /repo; they model the CPython 3.6 builtins the
repository calls.  `str` is `List Char`; exceptions are values.
-/
namespace Verif

/-- Python `str`: a list of code points.  Simplification: no lone surrogates. -/
abbrev Str := List Char

/-- Python `bytes`. -/
abbrev Bytes := List UInt8

open Lean in
/-- `s%"abc"` is the list literal `['a', 'b', 'c']`. -/
macro:max "s%" s:str : term => do
  let cs := s.getString.toList
  let elems : Array (TSyntax `term) :=
    (cs.map fun c => (⟨Syntax.mkCharLit c⟩ : TSyntax `term)).toArray
  `(([$elems,*] : List Char))

open Lean in
/-- `b%"abc"` is the byte list `[97, 98, 99]` (ASCII text only). -/
macro:max "b%" s:str : term => do
  let cs := s.getString.toList
  let elems : Array (TSyntax `term) :=
    (cs.map fun c => (⟨Syntax.mkNumLit (toString c.toNat)⟩ : TSyntax `term)).toArray
  `(([$elems,*] : List UInt8))

/-- The exceptions the modelled code can raise, by class. -/
inductive PyErr where
  | valueError | typeError | keyError | indexError | attributeError
  | stopIteration | unicodeError | lookupError | assertionError | recursionError
  | notFound | methodNotAllowed | notImplemented | notAcceptable
  | badRequest | clientDisconnected | securityError | requestRedirect
  | buildError | runtimeError | overflowError
  deriving DecidableEq, Repr

/-- Results of calls that may raise can be compared (for the concrete examples). -/
instance {α} [DecidableEq α] : DecidableEq (Except PyErr α)
  | .ok a, .ok b => if h : a = b then isTrue (by rw [h]) else isFalse (by intro e; cases e; exact h rfl)
  | .error a, .error b => if h : a = b then isTrue (by rw [h]) else isFalse (by intro e; cases e; exact h rfl)
  | .ok _, .error _ => isFalse (by intro e; cases e)
  | .error _, .ok _ => isFalse (by intro e; cases e)

namespace Py

/-! ### `str.replace` -/

/-- Worker of `replace`: the first argument counts characters still to skip because
they belong to the last match. -/
def replaceGo (old new : Str) : Nat → Str → Str
  | _, [] => []
  | 0, c :: cs =>
    if old.isPrefixOf (c :: cs) then new ++ replaceGo old new (old.length - 1) cs
    else c :: replaceGo old new 0 cs
  | n + 1, _ :: cs => replaceGo old new n cs

/-- `s.replace(old, new)` for a non-empty `old`: leftmost non-overlapping matches. -/
def replace (old new s : Str) : Str := replaceGo old new 0 s

/-! ### whitespace -/

/-- `c.isspace()`: the complete list of code points Python strips by default. -/
def isSpace (c : Char) : Bool :=
  let n := c.toNat
  (9 ≤ n && n ≤ 13) || (28 ≤ n && n ≤ 32) || n == 0x85 || n == 0xA0 || n == 0x1680 ||
  (0x2000 ≤ n && n ≤ 0x200A) || n == 0x2028 || n == 0x2029 || n == 0x202F ||
  n == 0x205F || n == 0x3000

def lstripP (p : Char → Bool) (s : Str) : Str := s.dropWhile p
def rstripP (p : Char → Bool) (s : Str) : Str := (s.reverse.dropWhile p).reverse
/-- `s.strip(chars)` with a character predicate. -/
def stripP (p : Char → Bool) (s : Str) : Str := rstripP p (lstripP p s)

/-- `s.strip()`. -/
def strip (s : Str) : Str := stripP isSpace s
/-- `s.lstrip()`. -/
def lstrip (s : Str) : Str := lstripP isSpace s
/-- `s.rstrip()`. -/
def rstrip (s : Str) : Str := rstripP isSpace s

/-! ### splitting -/

/-- `s.split(c, 1)` seen as a partition: text before the first `c`, and the text after
it when there is one. -/
def split1 (c : Char) : Str → Str × Option Str
  | [] => ([], none)
  | x :: xs =>
    if x = c then ([], some xs)
    else ((x :: (split1 c xs).1), (split1 c xs).2)

/-- `s.split(c)` for a one character separator: never empty. -/
def splitOn (c : Char) : Str → List Str
  | [] => [[]]
  | x :: xs =>
    if x = c then [] :: splitOn c xs
    else match splitOn c xs with
      | [] => [[x]]
      | y :: ys => (x :: y) :: ys

/-- `sep.join(parts)`. -/
def join (sep : Str) : List Str → Str
  | [] => []
  | [x] => x
  | x :: y :: ys => x ++ sep ++ join sep (y :: ys)

/-! ### slices -/

/-- `s[1:-1]`. -/
def slice1m1 (s : Str) : Str := (s.drop 1).dropLast

/-! ### integers -/

/-- `str(n)` for a natural number. -/
def natStr (n : Nat) : Str :=
  if n < 10 then [Char.ofNat (48 + n)]
  else natStr (n / 10) ++ [Char.ofNat (48 + n % 10)]
termination_by n

/-- `str(i)`. -/
def intStr (i : Int) : Str :=
  match i with
  | .ofNat n => natStr n
  | .negSucc n => '-' :: natStr (n + 1)

/-- Value of an ASCII decimal digit.  Simplification: `int()` also accepts other
Unicode decimal digits; they are rejected here. -/
def digitVal (c : Char) : Option Nat :=
  if 48 ≤ c.toNat ∧ c.toNat ≤ 57 then some (c.toNat - 48) else none

/-- `int()` on the digits after sign and whitespace: single underscores are allowed
between digits (PEP 515, Python 3.6).  `prev` says whether the last character was a
digit, `acc` is the value so far. -/
def digitsGo : Bool → Nat → Str → Option Nat
  | prev, acc, [] => if prev then some acc else none
  | prev, acc, c :: cs =>
    match digitVal c with
    | some d => digitsGo true (acc * 10 + d) cs
    | none => if c = '_' ∧ prev = true then digitsGo false acc cs else none

/-- `int(s)` for text. -/
def intOf (s : Str) : Except PyErr Int :=
  match strip s with
  | '-' :: ds => match digitsGo false 0 ds with
    | some n => .ok (-(n : Int))
    | none => .error .valueError
  | '+' :: ds => match digitsGo false 0 ds with
    | some n => .ok n
    | none => .error .valueError
  | ds => match digitsGo false 0 ds with
    | some n => .ok n
    | none => .error .valueError

end Py
end Verif
