import Verif.Py
/-!
Specification of splitting text into lines and data at a separator, independent of the model.
-/
namespace Verif.Lines
open Verif

/-- Neither CR nor LF in the text. -/
def NoEol (s : Str) : Prop := '\r' ∉ s ∧ '\n' ∉ s

/-- The line terminators. -/
def Eol (t : Str) : Prop := t = ['\r', '\n'] ∨ t = ['\r'] ∨ t = ['\n']

/-- `Lines t ls`: `ls` are the lines of `t`, each with its terminator (CR LF, CR or LF), the
last possibly without; a CR LF is never separated. -/
inductive Lines : Str → List Str → Prop
  | nil : Lines [] []
  | last {b : Str} : b ≠ [] → NoEol b → Lines b [b]
  | cons {b t r : Str} {ls : List Str} : NoEol b → Eol t → (t = ['\r'] → r.head? ≠ some '\n') →
      Lines r ls → Lines (b ++ t ++ r) ((b ++ t) :: ls)

/-- `Split sep t ps`: `ps` are the pieces of `t` cut at the separator, from left to right. -/
inductive Split {α} (sep : List α) : List α → List (List α) → Prop
  | last {t : List α} : (∀ q r, t ≠ q ++ sep ++ r) → Split sep t [t]
  | cons {p r : List α} {ps : List (List α)} :
      (∀ q s, p ++ sep ++ r = q ++ sep ++ s → p.length ≤ q.length) →
      Split sep r ps → Split sep (p ++ sep ++ r) (p :: ps)

end Verif.Lines
