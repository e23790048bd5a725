import Verif.RegexLemmas
/-!
The language of a regular expression, and how the matches of the engine relate to it.
-/
namespace Verif.Re
variable {α : Type}

/-- Neither `$` nor a look-behind. -/
def Free : Re α → Prop
  | eps => True
  | cls _ => True
  | seq a b => Free a ∧ Free b
  | alt a b => Free a ∧ Free b
  | star _ a => Free a
  | grp _ a => Free a
  | eos _ => False
  | notAfter _ => False

/-- Neither `$` nor a look-behind nor a group. -/
def Pure : Re α → Prop
  | eps => True
  | cls _ => True
  | seq a b => Pure a ∧ Pure b
  | alt a b => Pure a ∧ Pure b
  | star _ a => Pure a
  | grp _ _ => False
  | eos _ => False
  | notAfter _ => False

/-- The texts a pattern without `$` and look-behind stands for. -/
def Lang : Re α → List α → Prop
  | eps, t => t = []
  | cls p, t => ∃ c, t = [c] ∧ p c = true
  | seq a b, t => ∃ u v, t = u ++ v ∧ Lang a u ∧ Lang b v
  | alt a b, t => Lang a t ∨ Lang b t
  | star _ a, t => ∃ ts : List (List α), t = ts.flatten ∧ ∀ u ∈ ts, u ≠ [] ∧ Lang a u
  | grp _ a, t => Lang a t
  | eos _, _ => False
  | notAfter _, _ => False

theorem Pure.free {r : Re α} (h : Pure r) : Free r := by
  induction r with
  | eps => trivial
  | cls p => trivial
  | seq a b iha ihb => exact ⟨iha h.1, ihb h.2⟩
  | alt a b iha ihb => exact ⟨iha h.1, ihb h.2⟩
  | star g a ih => exact ih h
  | grp n a _ => exact h.elim
  | eos nl => exact h.elim
  | notAfter p => exact h.elim

theorem mem_star {f : Option α → List α → List (M α)} {L : List α → Prop}
    (hf : ∀ prev s m, m ∈ f prev s ↔ m.txt ++ m.rest = s ∧ m.caps = [] ∧ L m.txt) (g : Bool) (n : Nat) :
    ∀ prev s m, s.length ≤ n → (m ∈ starRun g f n prev s ↔ m.txt ++ m.rest = s ∧ m.caps = [] ∧
      ∃ ts : List (List α), m.txt = ts.flatten ∧ ∀ u ∈ ts, u ≠ [] ∧ L u) := by
  induction n with
  | zero =>
    intro prev s m h
    have hs : s = [] := List.length_eq_zero_iff.1 (by omega)
    subst hs
    obtain ⟨t, r, c⟩ := m
    simp only [starRun, List.mem_singleton, M.mk.injEq]
    constructor
    · rintro ⟨rfl, rfl, rfl⟩
      exact ⟨rfl, rfl, [], rfl, by simp⟩
    · rintro ⟨h1, h2, _⟩
      have := List.append_eq_nil_iff.1 h1
      exact ⟨this.1, this.2, h2⟩
  | succ n ih =>
    intro prev s m h
    have key : m ∈ starRun g f (n + 1) prev s ↔ m = ⟨[], s, []⟩ ∨
        ∃ m1 ∈ f prev s, m1.txt ≠ [] ∧ m ∈ andThen (starRun g f n) prev m1 := by
      simp only [starRun]
      cases g <;> simp [List.mem_flatMap, and_assoc, or_comm]
    rw [key]
    constructor
    · rintro (rfl | ⟨m1, h1, h2, h3⟩)
      · exact ⟨rfl, rfl, [], rfl, by simp⟩
      · obtain ⟨e1, e2, e3⟩ := (hf _ _ _).1 h1
        simp only [andThen, List.mem_map] at h3
        obtain ⟨m2, h4, rfl⟩ := h3
        have hl : m1.rest.length ≤ n := by
          have := congrArg List.length e1
          have := List.length_pos_iff.2 h2
          simp at *
          omega
        obtain ⟨f1, f2, ts, f3, f4⟩ := (ih _ _ _ hl).1 h4
        refine ⟨by simp [f1, e1], by simp [f2, e2], m1.txt :: ts, by simp [f3], ?_⟩
        intro u hu
        rcases List.mem_cons.1 hu with rfl | hu
        · exact ⟨h2, e3⟩
        · exact f4 u hu
    · rintro ⟨h1, h2, ts, h3, h4⟩
      obtain ⟨t, r, c⟩ := m
      dsimp only at h1 h2 h3
      subst h2
      cases ts with
      | nil =>
        left
        simp only [List.flatten_nil] at h3
        subst h3
        simp only [List.nil_append] at h1
        rw [h1]
      | cons u us =>
        right
        have hu := h4 u (.head _)
        simp only [List.flatten_cons] at h3
        refine ⟨⟨u, us.flatten ++ r, []⟩, (hf _ _ _).2 ⟨?_, rfl, hu.2⟩, hu.1, ?_⟩
        · rw [← h1, h3, List.append_assoc]
        · simp only [andThen, List.mem_map]
          refine ⟨⟨us.flatten, r, []⟩, (ih _ _ _ ?_).2 ⟨rfl, rfl, us, rfl, fun w hw => h4 w (.tail _ hw)⟩, ?_⟩
          · have := congrArg List.length h1
            have := List.length_pos_iff.2 hu.1
            rw [h3] at *
            simp at *
            omega
          · simp [h3]

/-- The matches of a pattern without `$`, look-behind and groups are the ways to split off a
text of its language. -/
theorem mem_run {r : Re α} (hr : Pure r) : ∀ prev s m, m ∈ run r prev s ↔
    m.txt ++ m.rest = s ∧ m.caps = [] ∧ Lang r m.txt := by
  induction r with
  | eps =>
    intro prev s m
    obtain ⟨t, r, c⟩ := m
    simp only [run, List.mem_singleton, M.mk.injEq, Lang]
    constructor
    · rintro ⟨rfl, rfl, rfl⟩; exact ⟨rfl, rfl, rfl⟩
    · rintro ⟨h1, h2, h3⟩; subst h3; exact ⟨rfl, h1, h2⟩
  | cls p =>
    intro prev s m
    obtain ⟨t, r, c⟩ := m
    simp only [Lang]
    constructor
    · intro h
      cases s with
      | nil => cases h
      | cons x xs =>
        simp only [run] at h
        split at h
        · rename_i hp
          simp only [List.mem_singleton, M.mk.injEq] at h
          obtain ⟨rfl, rfl, rfl⟩ := h
          exact ⟨rfl, rfl, x, rfl, hp⟩
        · cases h
    · rintro ⟨h1, h2, x, h3, hp⟩
      subst h3 h1 h2
      simp [run, hp]
  | seq a b iha ihb =>
    intro prev s m
    simp only [run, List.mem_flatMap, Lang]
    constructor
    · rintro ⟨m1, h1, h2⟩
      simp only [andThen, List.mem_map] at h2
      obtain ⟨m2, h2, rfl⟩ := h2
      obtain ⟨e1, e2, e3⟩ := (iha hr.1 _ _ _).1 h1
      obtain ⟨f1, f2, f3⟩ := (ihb hr.2 _ _ _).1 h2
      exact ⟨by simp [f1, e1], by simp [e2, f2], _, _, rfl, e3, f3⟩
    · rintro ⟨h1, h2, u, v, h3, h4, h5⟩
      obtain ⟨t, r, c⟩ := m
      dsimp only at h1 h2 h3
      refine ⟨⟨u, v ++ r, []⟩, (iha hr.1 _ _ _).2 ⟨by rw [← h1, h3, List.append_assoc], rfl, h4⟩, ?_⟩
      simp only [andThen, List.mem_map]
      refine ⟨⟨v, r, []⟩, (ihb hr.2 _ _ _).2 ⟨rfl, rfl, h5⟩, ?_⟩
      simp [h3, h2]
  | alt a b iha ihb =>
    intro prev s m
    simp only [run, List.mem_append, iha hr.1, ihb hr.2, Lang]
    constructor
    · rintro (⟨h1, h2, h3⟩ | ⟨h1, h2, h3⟩)
      · exact ⟨h1, h2, .inl h3⟩
      · exact ⟨h1, h2, .inr h3⟩
    · rintro ⟨h1, h2, h3 | h3⟩
      · exact .inl ⟨h1, h2, h3⟩
      · exact .inr ⟨h1, h2, h3⟩
  | star g a ih =>
    intro prev s m
    exact mem_star (ih hr) g s.length prev s m (Nat.le_refl _)
  | grp n a _ => exact hr.elim
  | eos nl => exact hr.elim
  | notAfter p => exact hr.elim

/-! ### more text behind -/

/-- Put text behind what is left. -/
def M.extend (t : List α) (m : M α) : M α := { m with rest := m.rest ++ t }

theorem starRun_append {f : Option α → List α → List (M α)}
    (hsp : ∀ prev s, ∀ m ∈ f prev s, m.txt ++ m.rest = s)
    (t : List α) (hf : ∀ prev s, (f prev (s ++ t)).filter (fun m => t.length ≤ m.rest.length) =
      (f prev s).map (M.extend t)) (g : Bool) (n : Nat) :
    ∀ prev s, s.length ≤ n →
      (starRun g f (n + t.length) prev (s ++ t)).filter (fun m => t.length ≤ m.rest.length) =
        (starRun g f n prev s).map (M.extend t) := by
  -- the repetition leaves no more than it finds
  have hle : ∀ n prev s, ∀ m ∈ starRun g f n prev s, m.rest.length ≤ s.length := by
    intro n
    induction n with
    | zero => intro prev s m hm; simp [starRun] at hm; subst hm; exact Nat.le_refl _
    | succ n ih =>
      intro prev s m hm
      have key : m = ⟨[], s, []⟩ ∨ ∃ m1 ∈ f prev s, m1.txt ≠ [] ∧ m ∈ andThen (starRun g f n) prev m1 := by
        simp only [starRun] at hm
        cases g <;> simp [List.mem_flatMap, and_assoc] at hm
        · exact hm
        · exact hm.symm
      rcases key with rfl | ⟨m1, h1, _, h3⟩
      · exact Nat.le_refl _
      · simp only [andThen, List.mem_map] at h3
        obtain ⟨m2, h4, rfl⟩ := h3
        have := ih _ _ _ h4
        have := congrArg List.length (hsp _ _ _ h1)
        simp at *
        omega
  have zero : ∀ prev k, (starRun g f k prev t).filter (fun m => t.length ≤ m.rest.length) = [⟨[], t, []⟩] := by
    intro prev k
    cases k with
    | zero => simp [starRun]
    | succ k =>
      have : ((((f prev t).filter fun m => !m.txt.isEmpty).flatMap (andThen (starRun g f k) prev)).filter
          fun m => t.length ≤ m.rest.length) = [] := by
        rw [List.filter_eq_nil_iff]
        intro m hm
        simp only [List.mem_flatMap, List.mem_filter, andThen, List.mem_map] at hm
        obtain ⟨m1, ⟨h1, h2⟩, m2, h3, rfl⟩ := hm
        have := hle _ _ _ _ h3
        have := congrArg List.length (hsp _ _ _ h1)
        have : 0 < m1.txt.length := by
          cases h : m1.txt with
          | nil => simp [h] at h2
          | cons _ _ => simp
        simp at *
        omega
      simp only [starRun]
      cases g
      · simp [this]
      · simp [List.filter_append, this]
  induction n with
  | zero =>
    intro prev s h
    have hs : s = [] := List.length_eq_zero_iff.1 (by omega)
    subst hs
    simp only [List.nil_append, Nat.zero_add, starRun]
    rw [zero]
    rfl
  | succ n ih =>
    intro prev s h
    have hmore : ((((f prev (s ++ t)).filter fun m => !m.txt.isEmpty).flatMap
        (andThen (starRun g f (n + t.length)) prev)).filter fun m => t.length ≤ m.rest.length) =
        (((f prev s).filter fun m => !m.txt.isEmpty).flatMap (andThen (starRun g f n) prev)).map (M.extend t) := by
      rw [List.filter_flatMap, List.map_flatMap]
      have h1 : ((f prev (s ++ t)).filter fun m => !m.txt.isEmpty).flatMap
          (fun m => ((andThen (starRun g f (n + t.length)) prev m).filter fun m => decide (t.length ≤ m.rest.length))) =
          (((f prev (s ++ t)).filter fun m => decide (t.length ≤ m.rest.length)).filter fun m => !m.txt.isEmpty).flatMap
          (fun m => ((andThen (starRun g f (n + t.length)) prev m).filter fun m => decide (t.length ≤ m.rest.length))) := by
        rw [List.filter_filter]
        generalize f prev (s ++ t) = l
        induction l with
        | nil => rfl
        | cons x xs ihx =>
          by_cases hx : (t.length ≤ x.rest.length)
          · by_cases hy : x.txt.isEmpty
            · simp [hx, hy, List.filter_cons] at ihx ⊢; exact ihx
            · simp [hx, hy, List.filter_cons] at ihx ⊢; exact ihx
          · have : (andThen (starRun g f (n + t.length)) prev x).filter (fun m => decide (t.length ≤ m.rest.length)) = [] := by
              rw [List.filter_eq_nil_iff]
              intro m hm
              simp only [andThen, List.mem_map] at hm
              obtain ⟨m2, h3, rfl⟩ := hm
              have := hle _ _ _ _ h3
              simp
              omega
            by_cases hy : x.txt.isEmpty
            · simp [hx, hy, List.filter_cons] at ihx ⊢; exact ihx
            · simp only [List.filter_cons, hx, hy] at ihx ⊢
              simp only [Bool.not_false, if_true, List.flatMap_cons, this, List.nil_append, decide_false,
                Bool.and_false, Bool.false_eq_true, if_false, reduceIte]
              exact ihx
      rw [h1, hf]
      have hstep : ∀ m ∈ f prev s, m.txt.isEmpty = false →
          ((andThen (starRun g f (n + t.length)) prev (m.extend t)).filter fun m => decide (t.length ≤ m.rest.length)) =
          (andThen (starRun g f n) prev m).map (M.extend t) := by
        intro m hm hne
        have hl : m.rest.length ≤ n := by
          have := congrArg List.length (hsp _ _ _ hm)
          have : 0 < m.txt.length := by
            cases h : m.txt with
            | nil => simp [h] at hne
            | cons _ _ => simp
          simp at *
          omega
        have := ih (after prev m.txt) m.rest hl
        simp only [andThen, M.extend, List.filter_map, List.map_map]
        rw [show ((fun m : M α => decide (t.length ≤ m.rest.length)) ∘ fun m' : M α =>
          (⟨m.txt ++ m'.txt, m'.rest, m'.caps ++ m.caps⟩ : M α)) = fun m => decide (t.length ≤ m.rest.length) from rfl,
          this, List.map_map]
        rfl
      revert hstep
      generalize f prev s = l
      intro hstep
      induction l with
      | nil => rfl
      | cons x xs ihx =>
        have ihx := ihx fun m hm => hstep m (.tail _ hm)
        by_cases hy : x.txt.isEmpty
        · have : (x.extend t).txt.isEmpty = true := hy
          simp only [List.map_cons, List.filter_cons, this, hy, Bool.not_true, Bool.false_eq_true, if_false]
          exact ihx
        · have hy' : x.txt.isEmpty = false := by simpa using hy
          have : (x.extend t).txt.isEmpty = false := hy'
          simp only [List.map_cons, List.filter_cons, this, hy', Bool.not_false, if_true, List.flatMap_cons]
          rw [ihx, hstep x (.head _) hy']
    rw [show n + 1 + t.length = (n + t.length) + 1 by omega]
    simp only [starRun]
    cases g
    · simp only [Bool.false_eq_true, if_false, List.filter_cons, List.map_cons, hmore]
      simp [M.extend]
    · simp only [if_true, List.filter_append, List.map_append, hmore]
      simp [M.extend]

theorem flatMap_skip {β γ} (p : β → Bool) (f : β → List γ) (l : List β) (h : ∀ x ∈ l, p x = false → f x = []) :
    l.flatMap f = (l.filter p).flatMap f := by
  induction l with
  | nil => rfl
  | cons x xs ih =>
    have ih := ih fun x hx => h x (.tail _ hx)
    by_cases hp : p x = true
    · rw [List.filter_cons, if_pos hp, List.flatMap_cons, List.flatMap_cons, ih]
    · rw [List.filter_cons, if_neg hp, List.flatMap_cons, h x (.head _) (by simpa using hp), ih, List.nil_append]

/-- The matches which leave the text `t` at the end alone are those without it. -/
theorem run_append {r : Re α} (hr : Free r) (t : List α) : ∀ prev s,
    (run r prev (s ++ t)).filter (fun m => t.length ≤ m.rest.length) = (run r prev s).map (M.extend t) := by
  induction r with
  | eps => intro prev s; simp [run, M.extend]
  | cls p =>
    intro prev s
    cases s with
    | nil =>
      cases t with
      | nil => rfl
      | cons c cs =>
        simp only [List.nil_append, run]
        split
        · rw [List.filter_eq_nil_iff.2]
          · rfl
          · intro m hm; simp at hm; subst hm; simp
        · rfl
    | cons c cs =>
      simp only [List.cons_append, run]
      split
      · simp [M.extend]
      · rfl
  | seq a b iha ihb =>
    intro prev s
    simp only [run]
    rw [List.filter_flatMap, List.map_flatMap,
      flatMap_skip (fun m => decide (t.length ≤ m.rest.length)), iha hr.1, List.flatMap_map]
    · congr 1
      funext m
      have := ihb hr.2 (after prev m.txt) m.rest
      simp only [andThen, M.extend, List.filter_map, List.map_map]
      rw [show ((fun m : M α => decide (t.length ≤ m.rest.length)) ∘ fun m' : M α =>
        (⟨m.txt ++ m'.txt, m'.rest, m'.caps ++ m.caps⟩ : M α)) = fun m => decide (t.length ≤ m.rest.length) from rfl,
        this, List.map_map]
      rfl
    · intro m _ hx
      rw [List.filter_eq_nil_iff]
      intro m' hm'
      simp only [andThen, List.mem_map] at hm'
      obtain ⟨m2, h3, rfl⟩ := hm'
      have := congrArg List.length (run_split b _ _ _ h3)
      simp at *
      omega
  | alt a b iha ihb =>
    intro prev s
    simp only [run, List.filter_append, List.map_append, iha hr.1, ihb hr.2]
  | star g a ih =>
    intro prev s
    simp only [run]
    rw [List.length_append]
    exact starRun_append (fun prev s => run_split a prev s) t (ih hr) g s.length prev s (Nat.le_refl _)
  | grp n a ih =>
    intro prev s
    simp only [run, List.filter_map, List.map_map]
    rw [show ((fun m : M α => decide (t.length ≤ m.rest.length)) ∘ fun m : M α => { m with caps := (n, m.txt) :: m.caps }) =
      fun m => decide (t.length ≤ m.rest.length) from rfl, ih hr, List.map_map]
    rfl
  | eos nl => exact hr.elim
  | notAfter p => exact hr.elim

end Verif.Re
