import Verif.Model.Accept
/-!
Model of the questions to a parsed Accept header and of their answers,
`/repo/verktyg/accept/_base.py:107-122`, `content_type.py:84-112, 134-149`, `language.py:34-48, 77-78`,
`charset.py:28-34, 45-46`.
-/
namespace Verif.Accept
open Verif

/-- `accept[value]`, _base.py:118-122: `NotAcceptable` becomes `KeyError`.  `qs` is the quality that
the value was made with, _base.py:186-188. -/
def lookup (mul : Flt → Flt → Flt) (k : Kind) (v : Str) (qs : Option Flt) (os : List Rng) : Except PyErr Acc :=
  match acceptability mul k v qs os with
  | .ok a => .ok a
  | .error .notAcceptable => .error .keyError
  | .error e => .error e

/-- `type_matches` and `specificity`, the parts of `_match_quality`: content_type.py:88-94,
language.py:38-44. -/
def Acc.part (a : Acc) (i : Nat) : Int := a.mq.getD i 0

/-- `exact_match`: content_type.py:96-98, language.py:46-48, charset.py:32-34. -/
def exactMatch (k : Kind) (a : Acc) : Bool :=
  match k with
  | .contentType => a.part 0 ≠ 0 && a.part 1 ≠ 0
  | .language => -(a.part 0) = 0
  | .charset => a.part 0 ≠ 0

/-- `to_header()` of a value: content_type.py:134-137, _base.py:220-226. -/
def valueHeader (k : Kind) (v : Str) : Except PyErr Str :=
  match k with
  | .contentType =>
    match slashPair v with
    | .error e => .error e
    | .ok (t, s) => .ok (t ++ '/' :: s)
  | _ => .ok v

end Verif.Accept
