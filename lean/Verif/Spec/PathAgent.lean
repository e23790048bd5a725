import Verif.Spec.TimedAgent
/-!
Cookies of several hosts and paths, RFC 6265 sections 5.1.4, 5.3 and 5.4: what a user agent keeps of a `Set-Cookie`
header and what it sends.  Cookies with the attribute Domain are not considered.
-/
namespace Verif.Spec.PathAgent
open Verif Verif.Spec

/-- Cookies by host, path and name: the value, and the moment at which they end, if any. -/
abbrev Store (κ : Type) := List ((Str × Bytes × κ) × κ × Option Int)

/-- Those that have not ended. -/
def living {κ : Type} (now : Int) (m : Store κ) : Store κ :=
  m.filter fun c => match c.2.2 with
    | none => true
    | some e => decide (now < e)

/-- The path of a cookie: the attribute if it begins with a slash, or what follows from the request, section 5.2.4. -/
def pathFor (dflt : Bytes) (attr : Option Bytes) : Bytes :=
  match attr with
  | some (47 :: p) => 47 :: p
  | _ => dflt

/-- The cookies after a `Set-Cookie` header in the answer to a request to `host`, section 5.3. -/
def accept (date : Bytes → Option Int) (now : Int) (host : Str) (dflt : Bytes) (store : Store Bytes) (header : Bytes) :
    Store Bytes :=
  match Agent.pairOf header with
  | none => store
  | some p =>
    living now (Dict.set store (host, pathFor dflt (Agent.attr b%"path" header), p.1) (p.2, Agent.ends date now header))

/-- Whether a cookie path covers a request path, section 5.1.4. -/
def Covers (path request : Bytes) : Prop :=
  request = path ∨ ∃ rest, request = path ++ rest ∧ (path.getLast? = some 47 ∨ rest.head? = some 47)

/-- Whether a cookie is for a request, section 5.4. -/
def For {κ : Type} (now : Int) (host : Str) (request : Bytes) (c : (Str × Bytes × κ) × κ × Option Int) : Prop :=
  c.1.1 = host ∧ Covers c.1.2.1 request ∧ ∀ e, c.2.2 = some e → now < e

/-- What is sent: the cookies for the request, those with longer paths first, section 5.4. -/
def Sent {κ : Type} (now : Int) (host : Str) (request : Bytes) (store order : Store κ) : Prop :=
  order.Nodup ∧ (∀ c, c ∈ order ↔ c ∈ store ∧ For now host request c) ∧
    order.Pairwise fun a b => b.1.2.1.length ≤ a.1.2.1.length

end Verif.Spec.PathAgent
