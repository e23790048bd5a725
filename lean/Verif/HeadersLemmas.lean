import Verif.PyLemmas
import Verif.Model.Headers
import Verif.Spec.HeaderMap
/-! Helper lemmas for `Headers`. -/
namespace Verif.Headers
open Verif Verif.Spec

variable (lower : Str → Str)

theorem getlist_eq (l : HList) (k : Str) :
    getlist lower l k = (l.filter (fun p => decide (lower p.1 = lower k))).map (·.2) := by
  induction l with
  | nil => rfl
  | cons p ps ih =>
    obtain ⟨a, b⟩ := p
    by_cases h : lower a = lower k <;> simp [getlist, h, ih]

theorem getItem_eq (l : HList) (k : Str) : getItem lower l k = (getlist lower l k).head? := by
  induction l with
  | nil => rfl
  | cons p ps ih =>
    obtain ⟨a, b⟩ := p
    by_cases h : lower a = lower k <;> simp [getlist, getItem, h, ih]

theorem getlist_append (l r : HList) (k : Str) :
    getlist lower (l ++ r) k = getlist lower l k ++ getlist lower r k := by
  simp [getlist_eq]

theorem getlist_delKey (l : HList) (k x : Str) :
    getlist lower (delKey lower l k) x = if lower x = lower k then [] else getlist lower l x := by
  rw [getlist_eq, getlist_eq]
  unfold delKey
  rw [List.filter_filter]
  split
  · rename_i h
    rw [List.map_eq_nil_iff, List.filter_eq_nil_iff]
    intro p _
    simp [h]
  · rename_i h
    congr 1
    apply List.filter_congr
    intro p _
    by_cases hp : lower p.1 = lower x <;> simp [hp, h]

theorem validate_ok (v : Str) : validate v = if LegalValue v then .ok () else .error .valueError := by
  unfold validate LegalValue
  by_cases h1 : '\n' ∈ v <;> by_cases h2 : '\r' ∈ v <;> simp [h1, h2]

theorem setLoop_none (l : HList) (k v : Str) :
    setLoop lower l k v = none ↔ ∀ p ∈ l, lower p.1 ≠ lower k := by
  induction l with
  | nil => simp [setLoop]
  | cons p ps ih =>
    obtain ⟨a, b⟩ := p
    by_cases h : lower a = lower k <;> simp [setLoop, h, ih]

theorem setLoop_some (l : HList) (k v : Str) (r : HList) (h : setLoop lower l k v = some r) :
    ∃ pre p post, l = pre ++ p :: post ∧ (∀ q ∈ pre, lower q.1 ≠ lower k) ∧ lower p.1 = lower k ∧
      r = pre ++ (k, v) :: post.filter (fun t => decide (lower t.1 ≠ lower k)) := by
  induction l generalizing r with
  | nil => simp [setLoop] at h
  | cons p ps ih =>
    obtain ⟨a, b⟩ := p
    simp only [setLoop] at h
    split at h
    · rename_i ha
      simp only [Option.some.injEq] at h
      exact ⟨[], (a, b), ps, rfl, by simp, ha, by simp [← h]⟩
    · rename_i ha
      simp only [Option.map_eq_some_iff] at h
      obtain ⟨r', hr', rfl⟩ := h
      obtain ⟨pre, q, post, e, h1, h2, h3⟩ := ih r' hr'
      refine ⟨(a, b) :: pre, q, post, by simp [e], ?_, h2, by simp [h3]⟩
      intro x hx
      simp only [List.mem_cons] at hx
      rcases hx with rfl | hx
      · exact ha
      · exact h1 x hx

/-- `set` without options on a legal value. -/
theorem set_legal (l : HList) (k v : Str) (kw) (hv : LegalValue (effValue v kw)) :
    ((∀ p ∈ l, lower p.1 ≠ lower k) ∧ set lower l k v kw = (l ++ [(k, effValue v kw)], .ok ())) ∨
    ∃ pre p post, l = pre ++ p :: post ∧ (∀ q ∈ pre, lower q.1 ≠ lower k) ∧ lower p.1 = lower k ∧
      set lower l k v kw =
        (pre ++ (k, effValue v kw) :: post.filter (fun t => decide (lower t.1 ≠ lower k)), .ok ()) := by
  unfold set
  rw [validate_ok, if_pos hv]
  cases l with
  | nil => left; simp
  | cons p ps =>
    simp only [List.isEmpty_cons, Bool.false_eq_true, if_false]
    cases hs : setLoop lower (p :: ps) k (effValue v kw) with
    | none => left; exact ⟨(setLoop_none lower _ _ _).mp hs, rfl⟩
    | some r =>
      right
      obtain ⟨pre, q, post, e, h1, h2, h3⟩ := setLoop_some lower _ _ _ r hs
      exact ⟨pre, q, post, e, h1, h2, by simp [h3]⟩

theorem set_illegal (l : HList) (k v : Str) (kw) (hv : ¬ LegalValue (effValue v kw)) :
    set lower l k v kw = (l, .error .valueError) := by
  unfold set; rw [validate_ok, if_neg hv]

theorem add_legal (l : HList) (k v : Str) (kw) (hv : LegalValue (effValue v kw)) :
    add l k v kw = (l ++ [(k, effValue v kw)], .ok ()) := by
  unfold add; rw [validate_ok, if_pos hv]

theorem add_illegal (l : HList) (k v : Str) (kw) (hv : ¬ LegalValue (effValue v kw)) :
    add l k v kw = (l, .error .valueError) := by
  unfold add; rw [validate_ok, if_neg hv]

theorem extend_eq (l ps : HList) :
    (extend l ps).1 = l ++ ps.takeWhile (fun p => decide (LegalValue p.2)) := by
  induction ps generalizing l with
  | nil => simp [extend]
  | cons p ps ih =>
    simp only [extend]
    by_cases h : LegalValue p.2
    · have : add l p.1 p.2 [] = (l ++ [p], .ok ()) := by
        have := add_legal l p.1 p.2 [] (by simpa [effValue] using h)
        simpa [effValue] using this
      rw [this]
      simp [ih, h]
    · have : add l p.1 p.2 [] = (l, .error .valueError) :=
        add_illegal l p.1 p.2 [] (by simpa [effValue] using h)
      rw [this]
      simp [h]

theorem validateAll_ok (ps : HList) : validateAll ps = .ok () ∨ validateAll ps = .error .valueError := by
  induction ps with
  | nil => simp [validateAll]
  | cons p ps ih =>
    simp only [validateAll, validate_ok]
    by_cases h : LegalValue p.2 <;> simp [h, ih]

theorem validateAll_iff (ps : HList) : validateAll ps = .ok () ↔ ∀ p ∈ ps, LegalValue p.2 := by
  induction ps with
  | nil => simp [validateAll]
  | cons p ps ih =>
    simp only [validateAll, validate_ok]
    by_cases h : LegalValue p.2 <;> simp [h, ih]

theorem getlist_set (l : HList) (k v x : Str) (hv : LegalValue v) :
    getlist lower (set lower l k v []).1 x = if lower x = lower k then [v] else getlist lower l x := by
  rcases set_legal lower l k v [] (by simpa [effValue] using hv) with ⟨h, e⟩ | ⟨pre, p, post, e, h1, h2, h3⟩
  · rw [e]
    simp only [effValue, if_true]
    rw [getlist_append]
    split
    · rename_i hx
      have : getlist lower l x = [] := by
        rw [getlist_eq, List.map_eq_nil_iff, List.filter_eq_nil_iff]
        intro p hp; simpa [hx] using h p hp
      simp [this, getlist, hx]
    · rename_i hx
      have : ¬ lower k = lower x := fun h => hx h.symm
      simp [getlist, this]
  · rw [h3]
    subst e
    simp only [effValue, if_true]
    rw [getlist_append, getlist_append]
    have hpre : lower x = lower k → getlist lower pre x = [] := by
      intro hx
      rw [getlist_eq, List.map_eq_nil_iff, List.filter_eq_nil_iff]
      intro p hp; simpa [hx] using h1 p hp
    have hpost := getlist_delKey lower post k x
    unfold delKey at hpost
    split
    · rename_i hx
      simp only [getlist, hx, if_true]
      rw [if_pos hx] at hpost
      rw [hpre hx, ← hx]
      simp only [← hx] at hpost
      rw [hpost]; rfl
    · rename_i hx
      have hk : ¬ lower k = lower x := fun h => hx h.symm
      have hp : ¬ lower p.1 = lower x := fun h => hx (h.symm.trans h2)
      rw [if_neg hx] at hpost
      simp only [getlist, hk, hp, if_false]
      rw [hpost]

end Verif.Headers
