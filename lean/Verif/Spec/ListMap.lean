import Verif.Py
/-!
Specification of a multi-value dictionary: a set of keys in order of first insertion and a
list of values for each key.
-/
namespace Verif

/-- Abstract multi-value dictionary; `val` is only meaningful on `order`. -/
structure LMap (K V : Type) where
  order : List K
  val : K → List V

namespace LMap
variable {K V : Type} [DecidableEq K]

def empty : LMap K V := ⟨[], fun _ => []⟩

/-- Replace the values of a key, appending the key if it is new. -/
def put (m : LMap K V) (k : K) (vs : List V) : LMap K V :=
  ⟨if k ∈ m.order then m.order else m.order ++ [k], fun x => if x = k then vs else m.val x⟩

/-- Forget a key. -/
def drop (m : LMap K V) (k : K) : LMap K V :=
  ⟨m.order.filter (· ≠ k), fun x => if x = k then [] else m.val x⟩

/-- Append values one at a time. -/
def addAll (m : LMap K V) (ps : List (K × V)) : LMap K V :=
  ps.foldl (fun m p => m.put p.1 (m.val p.1 ++ [p.2])) m

end LMap
end Verif
