import Verif.Py
/-! Specification of cookie text: what a quoted value is, how a recipient splits a
`Set-Cookie` header into attributes.  Byte constants: `"` 34, `,` 44, `;` 59, `=` 61,
`\` 92. -/
namespace Verif

/-- Bytes that cannot act as a separator: printable ASCII other than `"`, `\`, `,`, `;`. -/
def PlainByte (c : UInt8) : Prop := 32 ≤ c ∧ c < 127 ∧ c ≠ 34 ∧ c ≠ 92 ∧ c ≠ 44 ∧ c ≠ 59

/-- The body of a quoted cookie value: plain bytes, an escaped `"` or `\`, three-digit octal
escapes. -/
inductive CookieBody : Bytes → Prop
  | nil : CookieBody []
  | plain (c s) : PlainByte c → CookieBody s → CookieBody (c :: s)
  | esc (c s) : c = 34 ∨ c = 92 → CookieBody s → CookieBody (92 :: c :: s)
  | oct (x y z s) : 48 ≤ x ∧ x ≤ 51 → 48 ≤ y ∧ y ≤ 55 → 48 ≤ z ∧ z ≤ 55 → CookieBody s →
      CookieBody (92 :: x :: y :: z :: s)

/-- The `;`-separated segments of a `Set-Cookie` header, as a recipient splits them
(RFC 6265 section 5.2). -/
def segmentsOf : Bytes → List Bytes
  | [] => [[]]
  | c :: cs =>
    if c = 59 then [] :: segmentsOf cs
    else match segmentsOf cs with
      | [] => [[c]]
      | s :: ss => (c :: s) :: ss

end Verif
