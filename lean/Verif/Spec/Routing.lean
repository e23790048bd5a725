import Verif.Py
/-!
The order of routes, without reference to the code: a route without arguments is more specific
than one with arguments, then one with more parts, then the first difference between the parts
decides.  Static text comes before variables, longer text before shorter text, and variables
are ordered by the weight of their converter.
-/
namespace Verif.Spec.Routing
open Verif

/-- A part of a rule: text between slashes, of some length, or a variable whose converter has
some weight. -/
inductive Rank where
  | text (length : Nat)
  | var (weight : Int)
deriving DecidableEq, Repr

/-- The order of parts. -/
def Rank.Before : Rank → Rank → Prop
  | .text m, .text n => n < m
  | .text _, .var _ => True
  | .var _, .text _ => False
  | .var v, .var w => v < w

/-- The first difference decides. -/
def PartsBefore : List Rank → List Rank → Prop
  | a :: as, b :: bs => a.Before b ∨ a = b ∧ PartsBefore as bs
  | [], _ :: _ => True
  | _, [] => False

/-- What counts for the order of a route. -/
structure Shape where
  hasArguments : Bool
  parts : List Rank
deriving DecidableEq, Repr

/-- The order of routes. -/
def MoreSpecific (a b : Shape) : Prop :=
  (a.hasArguments = false ∧ b.hasArguments = true) ∨
  (a.hasArguments = b.hasArguments ∧
    (b.parts.length < a.parts.length ∨
      (a.parts.length = b.parts.length ∧ PartsBefore a.parts b.parts)))

end Verif.Spec.Routing
