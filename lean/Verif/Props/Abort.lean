import Verif.Model.Abort
/-! Property theorem C65: the exception table. -/
namespace Verif.Props.AbortP
open Verif Verif.Abort

/-! ### Any list of classes -/

theorem find_sound_aux (classes : List Cls) (d : List (Int × Cls)) (n : Int) (c : Cls)
    (h : Dict.get (classes.foldl findStep d) n = some c) :
    (c ∈ classes ∧ c.code = some n) ∨ Dict.get d n = some c := by
  induction classes generalizing d with
  | nil => exact .inr h
  | cons k ks ih =>
    rcases ih _ h with ⟨h1, h2⟩ | h1
    · exact .inl ⟨by simp [h1], h2⟩
    · unfold findStep at h1
      split at h1
      · exact .inr h1
      · rename_i m hm
        have key : Dict.get (Dict.set d m k) n = some c → (c ∈ k :: ks ∧ c.code = some n) ∨ Dict.get d n = some c := by
          intro h2
          rw [Dict.get_set] at h2
          split at h2
          · rename_i e; cases h2; exact .inl ⟨by simp, by rw [hm, e]⟩
          · exact .inr h2
        split at h1
        · split at h1
          · exact .inr h1
          · exact key h1
        · exact key h1

/-- Whatever classes a module defines, the table only lists classes of the module under their
own code. -/
theorem C65_table_sound (classes : List Cls) (n : Int) (c : Cls) (h : Dict.get (find classes) n = some c) :
    c ∈ classes ∧ c.code = some n := by
  rcases find_sound_aux classes [] n c h with h | h
  · exact h
  · cases h

theorem findStep_keeps (d : List (Int × Cls)) (k : Cls) (n : Int) (h : Dict.get d n ≠ none) :
    Dict.get (findStep d k) n ≠ none := by
  have key : ∀ m, Dict.get (Dict.set d m k) n ≠ none := by
    intro m
    rw [Dict.get_set]
    split
    · simp
    · exact h
  unfold findStep
  split
  · exact h
  split
  · split
    · exact h
    · exact key _
  · exact key _

/-- Every code of a class of the module is in the table. -/
theorem C65_table_complete (classes : List Cls) (n : Int) (c : Cls) (hc : c ∈ classes) (hn : c.code = some n) :
    ∃ k, Dict.get (find classes) n = some k := by
  have gen : ∀ (classes : List Cls) (d : List (Int × Cls)), (c ∈ classes ∨ Dict.get d n ≠ none) →
      Dict.get (classes.foldl findStep d) n ≠ none := by
    intro classes
    induction classes with
    | nil => intro d h; rcases h with h | h; · cases h
             · exact h
    | cons k ks ih =>
      intro d h
      apply ih
      rcases h with h | h
      · rcases List.mem_cons.mp h with rfl | h
        · right
          unfold findStep
          rw [hn]
          simp only
          cases hd : Dict.get d n with
          | none => simp only; rw [Dict.get_set, if_pos rfl]; simp
          | some old =>
            simp only
            split
            · rw [hd]; simp
            · rw [Dict.get_set, if_pos rfl]; simp
        · exact .inl h
      · exact .inr (findStep_keeps d k n h)
  have := gen classes [] (.inl hc)
  unfold find
  cases h : Dict.get (classes.foldl findStep []) n with
  | none => exact absurd h this
  | some k => exact ⟨k, rfl⟩

/-- A class is not displaced by classes derived from it that follow it. -/
theorem C65_base_kept (pre post : List Cls) (b : Cls) (n : Int) (hb : b.code = some n)
    (hpre : ∀ c ∈ pre, c.code ≠ some n) (hpost : ∀ c ∈ post, c.code = some n → c.sub b = true) :
    Dict.get (find (pre ++ b :: post)) n = some b := by
  have h1 : Dict.get (pre.foldl findStep []) n = none := by
    cases h : Dict.get (pre.foldl findStep []) n with
    | none => rfl
    | some c =>
      have := C65_table_sound pre n c h
      exact absurd this.2 (hpre c this.1)
  have h2 : Dict.get (findStep (pre.foldl findStep []) b) n = some b := by
    generalize pre.foldl findStep [] = d at h1
    unfold findStep
    rw [hb]
    simp only [h1]
    rw [Dict.get_set, if_pos rfl]
  unfold find
  rw [List.foldl_append, List.foldl_cons]
  generalize findStep (pre.foldl findStep []) b = d at h2
  clear h1 hpre
  induction post generalizing d with
  | nil => exact h2
  | cons k ks ih =>
    rw [List.foldl_cons]
    apply ih (fun c hc => hpost c (by simp [hc]))
    unfold findStep
    split
    · exact h2
    · rename_i m hm
      by_cases e : m = n
      · subst e
        simp only [h2]
        rw [if_pos (hpost k (by simp) hm)]
        exact h2
      · have : Dict.get (Dict.set d m k) n = some b := by
          rw [Dict.get_set, if_neg (fun h => e h.symm)]; exact h2
        split
        · split
          · exact h2
          · exact this
        · exact this

example : repoClasses = repoClasses.take 1 ++ (⟨s%"BadRequest", some 400, [s%"BadRequest", s%"HTTPException"]⟩ :: repoClasses.drop 2) ∧
    (∀ c ∈ repoClasses.drop 2, c.code = some 400 → c.sub ⟨s%"BadRequest", some 400, [s%"BadRequest", s%"HTTPException"]⟩ = true) := by
  decide +kernel

/-! ### The classes of the library -/

/-- The codes for which the library defines an exception. -/
def knownCodes : List Int := [400, 401, 403, 404, 405, 406, 408, 409, 410, 411, 412, 413, 414, 415, 416, 417, 418, 422, 428, 429, 431, 500, 501, 502, 503, 504, 505]

/-- `abort(code)` raises an exception of that very code for the known codes and `LookupError`
for every other integer; further arguments make no difference. -/
theorem C65_abort (n : Int) (more : Bool) :
    if n ∈ knownCodes then ∃ c, call (aborter none []) (.code n) more = .cls c ∧ c.code = some n
    else call (aborter none []) (.code n) more = .lookup := by
  have hm : aborter none [] = find repoClasses := rfl
  rw [hm]
  unfold call
  have hk : ∀ c ∈ repoClasses, ∀ m, c.code = some m → m ∈ knownCodes := by
    intro c hc m hm
    have : repoClasses.all (fun c => match c.code with | none => true | some m => knownCodes.contains m) = true := by
      decide +kernel
    have := (List.all_eq_true.mp this) c hc
    rw [hm] at this
    simpa using this
  have hk' : ∀ m ∈ knownCodes, ∃ c ∈ repoClasses, c.code = some m := by decide +kernel
  split
  · rename_i h
    obtain ⟨c, hc, hcn⟩ := hk' n h
    obtain ⟨k, hkk⟩ := C65_table_complete repoClasses n c hc hcn
    simp only [hkk]
    exact ⟨k, rfl, (C65_table_sound repoClasses n k hkk).2⟩
  · rename_i h
    cases hg : Dict.get (find repoClasses) n with
    | none => simp only [hg]
    | some c =>
      have := C65_table_sound repoClasses n c hg
      exact absurd (hk c this.1 n this.2) h

/-- `abort(400)` raises the plain `BadRequest`. -/
example : call (aborter none []) (.code 400) false =
    .cls ⟨s%"BadRequest", some 400, [s%"BadRequest", s%"HTTPException"]⟩ := by decide +kernel

/-- An application is raised as the response, unless further arguments are given: then it is
taken for an unknown code, whatever the table holds. -/
theorem C65_application (mapping : Option (List (Int × Cls))) (extra : List (Int × Cls)) (more : Bool) :
    (call (aborter mapping extra) .app more = .response ↔ more = false) ∧
    (call (aborter mapping extra) .app more = .lookup ↔ more = true) := by
  cases more <;> simp [call]

/-- Extra entries take precedence, the last one first. -/
theorem C65_extra (mapping : Option (List (Int × Cls))) (extra : List (Int × Cls)) (n : Int) (more : Bool) :
    call (aborter mapping extra) (.code n) more =
      match (extra.filter (fun p => p.1 = n)).getLast? with
      | some p => .cls p.2
      | none => call (aborter mapping []) (.code n) more := by
  have gen : ∀ (extra : List (Int × Cls)) (d : List (Int × Cls)),
      Dict.get (extra.foldl (fun d p => Dict.set d p.1 p.2) d) n =
        match (extra.filter (fun p => p.1 = n)).getLast? with
        | some p => some p.2
        | none => Dict.get d n := by
    intro extra
    induction extra with
    | nil => intro d; rfl
    | cons p ps ih =>
      intro d
      rw [List.foldl_cons, ih, Dict.get_set]
      by_cases e : p.1 = n
      · rw [List.filter_cons_of_pos (by simpa using e), List.getLast?_cons]
        cases (ps.filter (fun p => p.1 = n)).getLast? with
        | none => simp [e]
        | some q => simp
      · rw [List.filter_cons_of_neg (by simpa using e), if_neg (fun h => e h.symm)]
  unfold call aborter
  simp only [gen]
  cases (extra.filter (fun p => p.1 = n)).getLast? <;> rfl

example : call (aborter none [(1, ⟨s%"NotFound", some 404, []⟩)]) (.code 1) false = .cls ⟨s%"NotFound", some 404, []⟩ := by
  decide +kernel

end Verif.Props.AbortP
