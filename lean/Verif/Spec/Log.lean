import Verif.Py
/-! Specification of an ordered multi-value dictionary: the log of its pairs. -/
namespace Verif.Log
variable {K V : Type} [DecidableEq K]

/-- Keys in order of first appearance. -/
def firstKeys : List K → List K
  | [] => []
  | a :: l => a :: (firstKeys l).filter (· ≠ a)

/-- The values logged for a key, in order. -/
def valuesFor (L : List (K × V)) (k : K) : List V := (L.filter (·.1 = k)).map (·.2)

/-- The log without a key. -/
def without (L : List (K × V)) (k : K) : List (K × V) := L.filter (·.1 ≠ k)

/-- The first pair of each key. -/
def firstPairs (L : List (K × V)) : List (K × V) :=
  (firstKeys (L.map (·.1))).filterMap fun k => (valuesFor L k).head?.map fun v => (k, v)

end Verif.Log
