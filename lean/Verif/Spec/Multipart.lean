import Verif.Py
/-!
How a receiver reads a multipart body, RFC 2046 section 5.1.1: parts lie between lines that
begin with two hyphens and the boundary, the line break before such a line belongs to it, and an
empty line ends the header of a part.
-/
namespace Verif.Spec.Multipart
open Verif

/-- The bytes before and after the first occurrence of `d`. -/
def cutAt (d : Bytes) : Bytes → Option (Bytes × Bytes)
  | [] => if d = [] then some ([], []) else none
  | x :: xs =>
    if d <+: x :: xs then some ([], (x :: xs).drop d.length)
    else (cutAt d xs).map fun r => (x :: r.1, r.2)

/-- All the pieces between occurrences of `d`, up to a number of pieces. -/
def pieces (d : Bytes) : Nat → Bytes → List Bytes
  | 0, s => [s]
  | n + 1, s => match cutAt d s with
    | none => [s]
    | some (a, r) => a :: pieces d n r

/-- The line break. -/
def crlf : Bytes := [13, 10]

/-- A part: a line break, the header, an empty line, the content. -/
def readPart (p : Bytes) : Option (Bytes × Bytes) :=
  if crlf <+: p then cutAt (crlf ++ crlf) (p.drop 2) else none

/-- The parts before the closing line, which is the boundary followed by two hyphens. -/
def readParts : List Bytes → Option (List (Bytes × Bytes))
  | [] => none
  | p :: ps =>
    if [45, 45] <+: p then some []
    else match readPart p, readParts ps with
      | some x, some xs => some (x :: xs)
      | _, _ => none

/-- Header and content of each part of a body. -/
def read (boundary body : Bytes) : Option (List (Bytes × Bytes)) :=
  match pieces (crlf ++ [45, 45] ++ boundary) body.length (crlf ++ body) with
  | _ :: ps => readParts ps
  | [] => none

end Verif.Spec.Multipart
