import Verif.Py
/-! Specification of base 64 encoding (RFC 4648, section 4), independent of the model. -/
namespace Verif.Spec.Base64
open Verif

/-- The alphabet. -/
def alphabet : Bytes := b%"ABCDEFGHIJKLMNOPQRSTUVWXYZabcdefghijklmnopqrstuvwxyz0123456789+/"

/-- The character of a six bit group. -/
def char (n : Nat) : UInt8 := alphabet.getD n 0

/-- The encoding with padding. -/
def encode : Bytes → Bytes
  | [] => []
  | [a] => [char (a.toNat / 4), char (a.toNat % 4 * 16), 61, 61]
  | [a, b] => [char (a.toNat / 4), char (a.toNat % 4 * 16 + b.toNat / 16), char (b.toNat % 16 * 4), 61]
  | a :: b :: c :: r =>
    char (a.toNat / 4) :: char (a.toNat % 4 * 16 + b.toNat / 16) ::
    char (b.toNat % 16 * 4 + c.toNat / 64) :: char (c.toNat % 64) :: encode r

example : encode b%"Aladdin:open sesame" = b%"QWxhZGRpbjpvcGVuIHNlc2FtZQ==" := by decide +kernel

/-- Octets seen as text of the same code points (ISO 8859-1). -/
def octets (b : Bytes) : Str := b.map fun x => Char.ofNat x.toNat

end Verif.Spec.Base64
