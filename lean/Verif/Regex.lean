/-!
A model of the part of CPython's `re` module the repository relies on: an ordered
backtracking matcher.  `run r prev s` lists all ways `r` can match a prefix of `s`, in the
order in which the backtracking engine would try them; the engine's answer is the head of
the list.  Not code from `/repo`; it interprets the patterns found there.

Simplification: the body of a repetition must consume input (this holds for every pattern
in the repository); an iteration matching the empty string is not tried.
-/
namespace Verif

/-- Regular expressions over symbols `α` (`Char` for `str`, `UInt8` for `bytes`). -/
inductive Re (α : Type) where
  | eps
  | cls (p : α → Bool)
  | seq (a b : Re α)
  | alt (a b : Re α)
  /-- `a*` (greedy) or `a*?` (lazy) -/
  | star (greedy : Bool) (a : Re α)
  /-- capturing group -/
  | grp (n : Nat) (a : Re α)
  /-- `$`: at the end, or before a newline that ends the string -/
  | eos (nl : α → Bool)
  /-- `(?<!p)`: the previous symbol, if any, is not in `p` -/
  | notAfter (p : α → Bool)

namespace Re
variable {α : Type}

/-- One way to match: the text consumed, the text left, the groups set (latest first). -/
structure M (α : Type) where
  txt : List α
  rest : List α
  caps : List (Nat × List α)
  deriving DecidableEq, Repr

/-- The value of group `n`, `none` if it did not take part in the match. -/
def M.group (m : M α) (n : Nat) : Option (List α) := m.caps.lookup n

/-- The symbol before the current position after consuming `txt`. -/
def after (prev : Option α) (txt : List α) : Option α :=
  match txt.getLast? with
  | some c => some c
  | none => prev

/-- Continue match `m` with each match of `f`. -/
def andThen (f : Option α → List α → List (M α)) (prev : Option α) (m : M α) : List (M α) :=
  (f (after prev m.txt) m.rest).map fun m' => ⟨m.txt ++ m'.txt, m'.rest, m'.caps ++ m.caps⟩

/-- Repetition of `f`, at most `fuel` times; each iteration must consume something. -/
def starRun (greedy : Bool) (f : Option α → List α → List (M α)) :
    Nat → Option α → List α → List (M α)
  | 0, _, s => [⟨[], s, []⟩]
  | n + 1, prev, s =>
    let more := ((f prev s).filter fun m => !m.txt.isEmpty).flatMap
      (andThen (starRun greedy f n) prev)
    if greedy then more ++ [⟨[], s, []⟩] else ⟨[], s, []⟩ :: more

/-- All matches of a prefix of `s`, in backtracking order. -/
def run : Re α → Option α → List α → List (M α)
  | eps, _, s => [⟨[], s, []⟩]
  | cls _, _, [] => []
  | cls p, _, c :: cs => if p c then [⟨[c], cs, []⟩] else []
  | seq a b, prev, s => (run a prev s).flatMap (andThen (run b) prev)
  | alt a b, prev, s => run a prev s ++ run b prev s
  | star g a, prev, s => starRun g (run a) s.length prev s
  | grp n a, prev, s => (run a prev s).map fun m => { m with caps := (n, m.txt) :: m.caps }
  | eos _, _, [] => [⟨[], [], []⟩]
  | eos nl, _, c :: cs => if nl c && cs.isEmpty then [⟨[], c :: cs, []⟩] else []
  | notAfter p, prev, s =>
    match prev with
    | some c => if p c then [] else [⟨[], s, []⟩]
    | none => [⟨[], s, []⟩]

/-- `pattern.match(s, pos)` where `s` is the text from `pos` on. -/
def first (r : Re α) (prev : Option α) (s : List α) : Option (M α) := (run r prev s).head?

/-- `a?` (greedy). -/
def opt (a : Re α) : Re α := alt a eps
/-- `a+` (greedy). -/
def plus (a : Re α) : Re α := seq a (star true a)
/-- A literal string. -/
def lit [DecidableEq α] : List α → Re α
  | [] => eps
  | [c] => cls (· == c)
  | c :: cs => seq (cls (· == c)) (lit cs)
/-- `a b c ...` -/
def cat : List (Re α) → Re α
  | [] => eps
  | [a] => a
  | a :: as => seq a (cat as)
/-- `a|b|c ...` (a non-empty list). -/
def alts : List (Re α) → Re α
  | [] => cls fun _ => false
  | [a] => a
  | a :: as => alt a (alts as)

end Re
end Verif
