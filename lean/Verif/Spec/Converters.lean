import Verif.Model.Routing
/-!
What the converters of a rule accept, without reference to patterns.
-/
namespace Verif.Spec.Routing
open Verif Verif.Routing

/-- A converter with its arguments, as written in a rule. -/
inductive Kind where
  | string (min : Nat) (max : Option Nat)
  | any (items : List Str)
  | path
  | int (fixed : Nat) (min max : Option Int)
  | uuid
  | float (F : FloatLib) (min max : Option Str)

/-- The arguments make sense; of floats, that the text Python writes for a float is read as this float. -/
def Kind.Ok : Kind → Prop
  | .string min max => ∀ k, max = some k → min ≤ k
  | .any items => items ≠ []
  | .float F _ _ => ∀ t f, F.canon t = some f → F.canon f = some f
  | _ => True

/-- The values of a converter. -/
def Kind.Valid : Kind → Val → Prop
  | .string min max, .str s => '/' ∉ s ∧ min ≤ s.length ∧ ∀ k, max = some k → s.length ≤ k
  | .any items, .str s => s ∈ items
  | .path, .str s => s ≠ [] ∧ s.head? ≠ some '/' ∧ '\n' ∉ s.tail
  | .int fixed min max, .int i => 0 ≤ i ∧ (∀ l, min = some l → l ≤ i) ∧ (∀ h, max = some h → i ≤ h) ∧
      (fixed ≠ 0 → i < 10 ^ fixed)
  | .uuid, .uuid n => n < 2 ^ 128
  | .float F min max, .flt f => F.canon f = some f ∧ (∀ l, min = some l → F.lt f l = false) ∧ ∀ h, max = some h → F.lt h f = false
  | _, _ => False

/-- A text of decimal digits, a dot and decimal digits. -/
def Digits (f : Str) : Prop :=
  ∃ a b, f = a ++ '.' :: b ∧ a ≠ [] ∧ b ≠ [] ∧ (∀ c ∈ a, 48 ≤ c.toNat ∧ c.toNat ≤ 57) ∧ ∀ c ∈ b, 48 ≤ c.toNat ∧ c.toNat ≤ 57

/-- Values that can be written in a path; only of floats there are others, those which Python writes with an exponent
(and infinity, and the negative ones). -/
def Kind.Plain : Kind → Val → Prop
  | .float _ _ _, .flt f => Digits f
  | _, _ => True

/-- Converters whose texts are never empty and have no slashes. -/
def Kind.Segment : Kind → Prop
  | .string min _ => 1 ≤ min
  | .any items => ∀ s ∈ items, s ≠ [] ∧ '/' ∉ s
  | .path => False
  | _ => True

/-- A rule in which each variable ends where a slash follows, or at the end of the rule. -/
def Segmented : List Part → Prop
  | [] => True
  | .text _ :: ps => Segmented ps
  | [.var _ _] => True
  | .var _ _ :: .text s :: ps => s.head? = some '/' ∧ Segmented ps
  | .var _ _ :: .var _ _ :: _ => False

/-- The converter of the module, `dec` giving the value of decimal digits. -/
def Kind.conv (dec : Char → Option Nat) : Kind → Converter
  | .string min max => stringConv min max
  | .any items => anyConv items
  | .path => pathConv
  | .int fixed min max => intConv dec fixed min max
  | .uuid => uuidConv
  | .float F min max => floatConv F dec min max

end Verif.Spec.Routing
