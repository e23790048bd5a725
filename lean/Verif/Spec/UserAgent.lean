import Verif.Spec.Cookies
import Verif.Dict
/-!
What a user agent does with cookies, RFC 6265 sections 5.2 to 5.4: how it reads a `Set-Cookie` header, which cookies
it keeps, and how it writes the `Cookie` header.  Cookies of one domain and path are considered, so that a cookie is
known by its name.
-/
namespace Verif.Spec.Agent
open Verif

/-- Spaces and tabs at both ends are removed. -/
def trim (b : Bytes) : Bytes :=
  ((b.dropWhile fun c => c == 32 || c == 9).reverse.dropWhile fun c => c == 32 || c == 9).reverse

/-- What stands before the first `=`, and what stands after it. -/
def before (b : Bytes) : Bytes := b.takeWhile (· != 61)
def after (b : Bytes) : Bytes := (b.dropWhile (· != 61)).drop 1

/-- The name and the value of the cookie: what stands before the first `;`, divided at the first `=`.  Headers
without `=` or without a name are ignored. -/
def pairOf (header : Bytes) : Option (Bytes × Bytes) :=
  let first := header.takeWhile (· != 59)
  if 61 ∉ first ∨ trim (before first) = [] then none else some (trim (before first), trim (after first))

/-- ASCII letters in lower case. -/
def small (b : Bytes) : Bytes := b.map fun c => if 65 ≤ c && c ≤ 90 then c + 32 else c

/-- The attributes, with their names in lower case. -/
def attrs (header : Bytes) : List (Bytes × Bytes) :=
  (segmentsOf header).tail.map fun s => (small (trim (before s)), trim (after s))

/-- The value of an attribute: the last one counts. -/
def attr (name header : Bytes) : Option Bytes := (((attrs header).filter (·.1 = name)).getLast?).map (·.2)

/-- The number a text stands for, if any: digits, perhaps after a minus. -/
def number : Bytes → Option Int
  | 45 :: ds => if ds ≠ [] ∧ ∀ d ∈ ds, 48 ≤ d ∧ d ≤ 57 then
      some (-((ds.foldl (fun n d => n * 10 + (d.toNat - 48)) 0 : Nat) : Int)) else none
  | ds => if ds ≠ [] ∧ ∀ d ∈ ds, 48 ≤ d ∧ d ≤ 57 then
      some ((ds.foldl (fun n d => n * 10 + (d.toNat - 48)) 0 : Nat) : Int) else none

/-- Whether a header takes the cookie away: Max-Age is not positive, or, without Max-Age, Expires is in the past. -/
def gone (past : Bytes → Bool) (header : Bytes) : Bool :=
  match (attr b%"max-age" header).bind number with
  | some n => decide (n ≤ 0)
  | none => match attr b%"expires" header with
    | some d => past d
    | none => false

/-- The cookies after a `Set-Cookie` header. -/
def receive (past : Bytes → Bool) (store : List (Bytes × Bytes)) (header : Bytes) : List (Bytes × Bytes) :=
  match pairOf header with
  | none => store
  | some p => if gone past header then Dict.del store p.1 else Dict.set store p.1 p.2

/-- The `Cookie` header for some cookies. -/
def cookieLine : List (Bytes × Bytes) → Bytes
  | [] => []
  | [p] => p.1 ++ 61 :: p.2
  | p :: ps => p.1 ++ 61 :: p.2 ++ [59, 32] ++ cookieLine ps

end Verif.Spec.Agent
