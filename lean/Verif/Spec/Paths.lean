import Verif.Py
/-!
Specification of path resolution, independent of the model.
-/
namespace Verif.Paths
open Verif

/-- One step of resolving a path: empty segments and `.` stay, `..` goes up (and stays in
the path when there is nothing to go up from), anything else goes down. -/
def walk (stack : List Str) (seg : Str) : List Str :=
  if seg = [] ∨ seg = ['.'] then stack
  else if seg = ['.', '.'] then
    (if stack = [] ∨ stack.getLast? = some ['.', '.'] then stack ++ [seg] else stack.dropLast)
  else stack ++ [seg]

/-- The names on the way from the root (or the working directory) to the file. -/
def resolve (p : Str) : List Str := (Py.splitOn '/' p).foldl walk []

/-- `f` lies in the directory `d` (or is it): both start from the same place and the way to
`d` is the beginning of the way to `f`. -/
def Inside (d f : Str) : Prop :=
  (f.head? = some '/' ↔ d.head? = some '/') ∧ resolve d <+: resolve f

/-- What follows a mount point begins a new segment. -/
def Boundary (rest : Str) : Prop := rest = [] ∨ rest.head? = some '/'

end Verif.Paths
