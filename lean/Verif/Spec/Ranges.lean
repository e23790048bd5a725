import Verif.Py
/-! Specification of byte range sets, independent of the parser. -/
namespace Verif.Spec
open Verif

/-- A well formed list of ranges, none starting before `lo`: closed ranges `[b, e)` are
non-empty, in increasing order and disjoint; only the last range may be open ended, or be
a suffix range (written with a non-positive begin). -/
inductive WellFormed : Int → List (Int × Option Int) → Prop
  | nil (lo) : WellFormed lo []
  | closed (lo b e rest) : lo ≤ b → b < e → WellFormed e rest → WellFormed lo ((b, some e) :: rest)
  | openEnd (lo b) : lo ≤ b → WellFormed lo [(b, none)]
  | suffix (lo b) : b ≤ 0 → WellFormed lo [(b, none)]

/-- One range as RFC 7233 writes it (bounds inclusive). -/
inductive RangeItem where
  | closed (first last : Nat)
  | openEnd (first : Nat)
  | suffix (length : Nat)

/-- Its text. -/
def RangeItem.text : RangeItem → Str
  | .closed a b => Py.natStr a ++ ['-'] ++ Py.natStr b
  | .openEnd a => Py.natStr a ++ ['-']
  | .suffix n => ['-'] ++ Py.natStr n

/-- The byte positions a range asks for in a resource of the given length. -/
def Requested (r : Int × Option Int) (length p : Int) : Prop :=
  0 ≤ p ∧ p < length ∧
  match r.2 with
  | some e => r.1 ≤ p ∧ p < e
  | none => if r.1 < 0 then length + r.1 ≤ p else r.1 ≤ p

/-- What a Content-Range may say: either no range (unsatisfied) and a non-negative or
unknown length, or a non-empty interval starting inside the resource. -/
def ValidContentRange (start stop length : Option Int) : Prop :=
  (start = none ∧ stop = none ∧ ∀ l, length = some l → 0 ≤ l) ∨
  ∃ a b, start = some a ∧ stop = some b ∧ 0 ≤ a ∧ a < b ∧ ∀ l, length = some l → a < l

end Verif.Spec
