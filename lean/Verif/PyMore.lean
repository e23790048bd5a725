import Verif.PyLemmas
/-!
More Python string functions with their basic facts.
-/
namespace Verif.Py
open Verif

/-- `s.rsplit(c, 1)` when `c` occurs in `s`: the parts before and after the last `c`. -/
def rsplit1 (c : Char) : Str → Option (Str × Str)
  | [] => none
  | x :: xs =>
    match rsplit1 c xs with
    | some (a, b) => some (x :: a, b)
    | none => if x = c then some ([], xs) else none

theorem rsplit1_none {c : Char} : ∀ {s : Str}, rsplit1 c s = none ↔ c ∉ s
  | [] => by simp [rsplit1]
  | x :: xs => by
    have ih := rsplit1_none (c := c) (s := xs)
    simp only [rsplit1]
    cases h : rsplit1 c xs with
    | some p => simp only [reduceCtorEq, List.mem_cons, not_or, false_iff]; rw [h] at ih; simp at ih; simp [ih]
    | none =>
      have := ih.1 h
      by_cases hx : x = c
      · simp [hx]
      · simp [hx, this, Ne.symm hx]

theorem rsplit1_some {c : Char} : ∀ {s a b : Str}, rsplit1 c s = some (a, b) → s = a ++ c :: b ∧ c ∉ b
  | [], _, _, h => by simp [rsplit1] at h
  | x :: xs, a, b, h => by
    simp only [rsplit1] at h
    cases hr : rsplit1 c xs with
    | some p =>
      obtain ⟨a', b'⟩ := p
      simp [hr] at h
      obtain ⟨rfl, rfl⟩ := h
      obtain ⟨h1, h2⟩ := rsplit1_some hr
      exact ⟨by simp [h1], h2⟩
    | none =>
      simp only [hr] at h
      split at h
      · rename_i hx
        simp at h
        obtain ⟨rfl, rfl⟩ := h
        exact ⟨by simp [hx], rsplit1_none.1 hr⟩
      · simp at h

/-- The parts are determined by the last `c`. -/
theorem rsplit1_eq {c : Char} {a b : Str} (h : c ∉ b) : rsplit1 c (a ++ c :: b) = some (a, b) := by
  induction a with
  | nil => simp [rsplit1, rsplit1_none.2 h]
  | cons x xs ih => simp [rsplit1, ih]

/-- Splitting and appending. -/
theorem splitOn_append_sep (c : Char) (a b : Str) : splitOn c (a ++ c :: b) = splitOn c a ++ splitOn c b := by
  induction a with
  | nil => simp [splitOn]
  | cons x xs ih =>
    simp only [List.cons_append, splitOn, ih]
    by_cases hx : x = c
    · simp [hx]
    · simp only [hx, if_false]
      cases h : splitOn c xs with
      | nil => exact absurd h (splitOn_ne_nil c xs)
      | cons p ps => simp

end Verif.Py
