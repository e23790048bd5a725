import Verif.Py
/-! Specification of a case-insensitive multimap, independent of the list model. -/
namespace Verif.Spec
open Verif

/-- A multimap: for each (folded) name its list of values, oldest first. -/
abbrev MMap := Str → List Str

/-- Replace the values of one name. -/
def MMap.upd (m : MMap) (k : Str) (vs : List Str) : MMap := fun x => if x = k then vs else m x

/-- A header value that may be stored: no line breaks. -/
def LegalValue (v : Str) : Prop := '\n' ∉ v ∧ '\r' ∉ v

instance (v : Str) : Decidable (LegalValue v) := inferInstanceAs (Decidable (_ ∧ _))

/-- Calls that address entries by name only. -/
inductive NameCall where
  | add (k v : Str)
  | set (k v : Str)
  | del (k : Str)
  | setdefault (k v : Str)
  | pop (k : Str) (default : Option Str)
  | extend (ps : List (Str × Str))
  | clear

/-- What each call does to the multimap; illegal values are rejected without effect, and
`extend` stops at the first illegal value. -/
def MMap.call (lower : Str → Str) (m : MMap) : NameCall → MMap
  | .add k v => if LegalValue v then m.upd (lower k) (m (lower k) ++ [v]) else m
  | .set k v => if LegalValue v then m.upd (lower k) [v] else m
  | .del k => m.upd (lower k) []
  | .setdefault k v =>
    if m (lower k) = [] ∧ LegalValue v then m.upd (lower k) [v] else m
  | .pop k _ => m.upd (lower k) []
  | .extend ps =>
    (ps.takeWhile (fun p => decide (LegalValue p.2))).foldl
      (fun m p => m.upd (lower p.1) (m (lower p.1) ++ [p.2])) m
  | .clear => fun _ => []

end Verif.Spec
