import Verif.Py
/-!
Specification of percent-decoding, independent of the model.
-/
namespace Verif.Percent
open Verif

/-- The value of a hexadecimal digit of either case. -/
def nibble (b : UInt8) : Option Nat :=
  match (b%"0123456789abcdef").idxOf? b with
  | some i => some i
  | none => (b%"0123456789ABCDEF").idxOf? b

/-- The byte meant by the escape `%ab`, if it is one. -/
def escape (a b : UInt8) : Option UInt8 :=
  match nibble a, nibble b with
  | some x, some y => some (UInt8.ofNat (16 * x + y))
  | _, _ => none

/-- Read from left to right, replacing each escape `%ab` by its byte unless that byte is to
be kept escaped; everything else stays. -/
def decode (keep : List UInt8) : Bytes → Bytes
  | [] => []
  | [a] => [a]
  | [a, b] => [a, b]
  | a :: b :: c :: rest =>
    if a = 37 then
      match escape b c with
      | some x => if x ∈ keep then 37 :: b :: c :: decode keep rest else x :: decode keep rest
      | none => 37 :: decode keep (b :: c :: rest)
    else a :: decode keep (b :: c :: rest)

/-- What the bytes stand for: every escape decoded. -/
def meaning (s : Bytes) : Bytes := decode [] s

/-- Every percent sign begins an escape. -/
inductive WellFormed : Bytes → Prop
  | nil : WellFormed []
  | plain {a : UInt8} {s : Bytes} : a ≠ 37 → WellFormed s → WellFormed (a :: s)
  | esc {a b x : UInt8} {s : Bytes} : escape a b = some x → WellFormed s → WellFormed (37 :: a :: b :: s)

end Verif.Percent
