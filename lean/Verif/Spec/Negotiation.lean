import Verif.Py
/-!
Specification of content negotiation, independent of the model.
-/
namespace Verif.Negotiation
open Verif

/-- `type/subtype`, with exactly one slash. -/
def IsMedia (v t s : Str) : Prop := v = t ++ '/' :: s ∧ '/' ∉ t ∧ '/' ∉ s

/-- The media range covers the media type: each part is equal or a star. -/
def Covers (range value : Str) : Prop :=
  ∃ rt rs t s, IsMedia range rt rs ∧ IsMedia value t s ∧ (rt = t ∨ rt = s%"*") ∧ (rs = s ∨ rs = s%"*")

/-- The range names one media type, without a star. -/
def Concrete (range : Str) : Prop := ∃ rt rs, IsMedia range rt rs ∧ rt ≠ s%"*" ∧ rs ≠ s%"*"

end Verif.Negotiation
