import Verif.Spec.UserAgent
/-!
Cookies that end, RFC 6265 sections 5.2.1, 5.2.2, 5.3 and 5.4: what a user agent keeps of a `Set-Cookie` header and
until when.  As in `Verif.Spec.UserAgent`, cookies of one domain and path are considered.  `date` is what the user
agent takes the text of Expires for, in seconds since 1970.
-/
namespace Verif.Spec.Agent
open Verif

/-- Cookies: name, value, and the moment at which they end, if any. -/
abbrev Timed (κ : Type) := List (κ × κ × Option Int)

/-- Those that have not ended. -/
def alive {κ : Type} (now : Int) (m : Timed κ) : Timed κ :=
  m.filter fun c => match c.2.2 with
    | none => true
    | some e => decide (now < e)

/-- Names and values. -/
def pairs {κ : Type} (m : Timed κ) : List (κ × κ) := m.map fun c => (c.1, c.2.1)

/-- When a cookie ends: Max-Age counts from now and comes before Expires. -/
def ends (date : Bytes → Option Int) (now : Int) (header : Bytes) : Option Int :=
  match (attr b%"max-age" header).bind number with
  | some n => some (now + n)
  | none => (attr b%"expires" header).bind date

/-- The cookies after a `Set-Cookie` header. -/
def accept (date : Bytes → Option Int) (now : Int) (store : Timed Bytes) (header : Bytes) : Timed Bytes :=
  match pairOf header with
  | none => store
  | some p => alive now (Dict.set store p.1 (p.2, ends date now header))

end Verif.Spec.Agent
