import Verif.RegexLemmas
/-!
The search of a backtracking matcher, counted.  `search r k prev s` tries the ways in which `r` can match a prefix of `s`,
in the order of `Verif.Re.run`, and after each what remains to be matched (`k`), until one succeeds: the number of
attempts and whether one did.  Every attempt to match a symbol, to repeat, to choose or to look at the end counts.
Not code from `/repo`: CPython's `re` without its optimisations, which save attempts but add none.
-/
namespace Verif.Re
variable {α : Type}

/-- What remains to be matched at a position: attempts, and whether it is matched. -/
abbrev Rest (α : Type) := Option α → List α → Nat × Bool

/-- One attempt more. -/
def tick (x : Nat × Bool) : Nat × Bool := (x.1 + 1, x.2)

/-- The second is tried if the first fails. -/
def orTry (x y : Nat × Bool) : Nat × Bool := if x.2 then x else (x.1 + y.1, y.2)

/-- Repetition, as in `starRun`. -/
def starSearch (greedy : Bool) (f : Rest α → Rest α) (k : Rest α) : Nat → Rest α
  | 0, prev, s => tick (k prev s)
  | n + 1, prev, s =>
    let more := f (fun prev' s' => if s'.length < s.length then starSearch greedy f k n prev' s' else (0, false)) prev s
    tick (if greedy then orTry more (k prev s) else orTry (k prev s) more)

/-- The search for a match of `r` and then of the rest. -/
def search : Re α → Rest α → Rest α
  | eps, k, prev, s => tick (k prev s)
  | cls _, _, _, [] => (1, false)
  | cls p, k, _, c :: cs => if p c then tick (k (some c) cs) else (1, false)
  | seq a b, k, prev, s => search a (search b k) prev s
  | alt a b, k, prev, s => tick (orTry (search a k prev s) (search b k prev s))
  | star g a, k, prev, s => starSearch g (search a) k s.length prev s
  | grp _ a, k, prev, s => tick (search a k prev s)
  | eos _, k, prev, [] => tick (k prev [])
  | eos nl, k, prev, c :: cs => if nl c && cs.isEmpty then tick (k prev (c :: cs)) else (1, false)
  | notAfter p, k, prev, s =>
    match prev with
    | some c => if p c then (1, false) else tick (k prev s)
    | none => tick (k prev s)

/-- Nothing remains. -/
def done : Rest α := fun _ _ => (0, true)

/-- The attempts of `pattern.match(s)`. -/
def attempts (r : Re α) (prev : Option α) (s : List α) : Nat := (search r done prev s).1

/-! ### The search finds what the matcher finds -/

theorem after_after (prev : Option α) (a b : List α) : after (after prev a) b = after prev (a ++ b) := by
  unfold after
  rw [List.getLast?_append]
  cases b.getLast? <;> rfl

theorem orTry_snd (x y : Nat × Bool) : (orTry x y).2 = (x.2 || y.2) := by
  unfold orTry
  cases h : x.2 <;> simp [h]

theorem search_run (r : Re α) : ∀ (k : Rest α) (prev : Option α) (s : List α),
    (search r k prev s).2 = (run r prev s).any fun m => (k (after prev m.txt) m.rest).2 := by
  induction r with
  | eps => intro k prev s; simp [search, run, tick, after]
  | cls p =>
    intro k prev s
    cases s with
    | nil => rfl
    | cons c cs =>
      simp only [search, run]
      split <;> simp [tick, after]
  | seq a b iha ihb =>
    intro k prev s
    simp only [search, run]
    rw [iha, List.any_flatMap]
    congr 1
    funext m
    rw [ihb, andThen, List.any_map]
    congr 1
    funext m'
    simp only [Function.comp, after_after]
  | alt a b iha ihb =>
    intro k prev s
    simp only [search, run, tick, orTry_snd, List.any_append, iha, ihb]
  | star g a iha =>
    intro k prev s
    simp only [search, run]
    generalize s.length = n
    induction n generalizing prev s with
    | zero => simp [starSearch, starRun, tick, after]
    | succ n ih =>
      have hm : (search a (fun prev' s' => if s'.length < s.length then starSearch g (search a) k n prev' s' else (0, false))
          prev s).2 = (((run a prev s).filter fun m => !m.txt.isEmpty).flatMap (andThen (starRun g (run a) n) prev)).any
            fun m => (k (after prev m.txt) m.rest).2 := by
        rw [iha, List.any_flatMap, List.any_filter]
        rw [Bool.eq_iff_iff, List.any_eq_true, List.any_eq_true]
        have key : ∀ m ∈ run a prev s, ((if m.rest.length < s.length then
            starSearch g (search a) k n (after prev m.txt) m.rest else (0, false)).2 = true ↔
            (!m.txt.isEmpty && (andThen (starRun g (run a) n) prev m).any fun m => (k (after prev m.txt) m.rest).2) = true) := by
          intro m hm
          have hs := run_split a prev s m hm
          have hl : m.rest.length < s.length ↔ m.txt.isEmpty = false := by
            rw [← hs, List.length_append]
            cases m.txt <;> simp
          by_cases h : m.txt.isEmpty = true
          · rw [if_neg (by rw [hl, h]; simp), h]
            simp
          · have h' : m.txt.isEmpty = false := by simpa using h
            rw [if_pos (hl.2 h'), h', ih, andThen, List.any_map]
            simp only [Bool.not_false, Bool.true_and]
            have : (fun m' : M α => (k (after (after prev m.txt) m'.txt) m'.rest).2) =
                ((fun m : M α => (k (after prev m.txt) m.rest).2) ∘
                  fun m' : M α => (⟨m.txt ++ m'.txt, m'.rest, m'.caps ++ m.caps⟩ : M α)) := by
              funext m'
              simp only [Function.comp, after_after]
            rw [this]
        constructor
        · rintro ⟨m, hm, h⟩; exact ⟨m, hm, (key m hm).1 h⟩
        · rintro ⟨m, hm, h⟩; exact ⟨m, hm, (key m hm).2 h⟩
      cases g
      · simp only [starSearch, starRun, tick, orTry_snd, Bool.false_eq_true, if_false, List.any_cons, hm]
        simp [after]
      · simp only [starSearch, starRun, tick, orTry_snd, if_true, List.any_append, hm]
        simp [after]
  | grp n a iha =>
    intro k prev s
    simp only [search, run, tick, iha, List.any_map]
    rfl
  | eos nl =>
    intro k prev s
    cases s with
    | nil => simp [search, run, tick, after]
    | cons c cs =>
      simp only [search, run]
      split <;> simp [tick, after]
  | notAfter p =>
    intro k prev s
    cases prev with
    | none => simp [search, run, tick, after]
    | some c =>
      simp only [search, run]
      split <;> simp [tick, after]

theorem search_first (r : Re α) (prev : Option α) (s : List α) : (search r done prev s).2 = (first r prev s).isSome := by
  rw [search_run, first]
  cases run r prev s <;> simp [done]

/-! ### Bounds -/

/-- At most `c * (n + 1) ^ d` times what remains. -/
def Deg (r : Re α) (c d : Nat) : Prop := ∀ (k : Rest α) (B : Nat) (prev : Option α) (s : List α),
  (∀ prev' s', s'.length ≤ s.length → (k prev' s').1 ≤ B) → (search r k prev s).1 ≤ c * (s.length + 1) ^ d * (B + 1)

theorem pow_pos' (n d : Nat) : 1 ≤ (n + 1) ^ d := Nat.one_le_pow _ _ (by omega)

theorem le_scale (c n d B : Nat) (x : Nat) (h : x ≤ c * (B + 1)) : x ≤ c * (n + 1) ^ d * (B + 1) := by
  have : c * 1 * (B + 1) ≤ c * (n + 1) ^ d * (B + 1) :=
    Nat.mul_le_mul_right _ (Nat.mul_le_mul_left _ (pow_pos' n d))
  rw [Nat.mul_one] at this
  exact Nat.le_trans h this

theorem orTry_le (x y : Nat × Bool) : (orTry x y).1 ≤ x.1 + y.1 := by
  unfold orTry
  split
  · exact Nat.le_add_right _ _
  · exact Nat.le_refl _

theorem deg_mono {r : Re α} {c c' d d' : Nat} (h : Deg r c d) (hc : c ≤ c') (hd : d ≤ d') : Deg r c' d' := by
  intro k B prev s hk
  refine Nat.le_trans (h k B prev s hk) (Nat.mul_le_mul_right _ (Nat.mul_le_mul hc ?_))
  exact Nat.pow_le_pow_right (by omega) hd

theorem deg_eps : Deg (eps : Re α) 1 0 := by
  intro k B prev s hk
  have := hk prev s (Nat.le_refl _)
  simp [search, tick]
  exact this

theorem deg_cls (p : α → Bool) : Deg (cls p) 1 0 := by
  intro k B prev s hk
  cases s with
  | nil => simp [search]
  | cons c cs =>
    simp only [search]
    split
    · have := hk (some c) cs (by simp)
      simp [tick]
      exact this
    · simp

theorem deg_eos (nl : α → Bool) : Deg (eos nl) 1 0 := by
  intro k B prev s hk
  have := hk prev s (Nat.le_refl _)
  cases s with
  | nil => simp [search, tick]; exact this
  | cons c cs =>
    simp only [search]
    split
    · simp [tick]; exact this
    · simp

theorem deg_notAfter (p : α → Bool) : Deg (notAfter p) 1 0 := by
  intro k B prev s hk
  have := hk prev s (Nat.le_refl _)
  cases prev with
  | none => simp [search, tick]; exact this
  | some c =>
    simp only [search]
    split
    · simp
    · simp [tick]; exact this

theorem deg_grp {a : Re α} {c d : Nat} (n : Nat) (h : Deg a c d) : Deg (grp n a) (c + 1) d := by
  intro k B prev s hk
  have h1 := h k B prev s hk
  have h2 : 1 ≤ 1 * (s.length + 1) ^ d * (B + 1) := le_scale 1 _ _ _ _ (by omega)
  simp only [search, tick]
  have : (c + 1) * (s.length + 1) ^ d * (B + 1) = c * (s.length + 1) ^ d * (B + 1) + 1 * (s.length + 1) ^ d * (B + 1) := by
    rw [Nat.add_mul, Nat.add_mul]
  omega

theorem deg_seq {a b : Re α} {c d c' d' : Nat} (ha : Deg a c d) (hb : Deg b c' d') :
    Deg (seq a b) (c * (c' + 1)) (d + d') := by
  intro k B prev s hk
  simp only [search]
  have hB : ∀ prev' s', s'.length ≤ s.length → (search b k prev' s').1 ≤ c' * (s.length + 1) ^ d' * (B + 1) := by
    intro prev' s' hs
    refine Nat.le_trans (hb k B prev' s' fun p'' s'' h => hk p'' s'' (Nat.le_trans h hs)) ?_
    exact Nat.mul_le_mul_right _ (Nat.mul_le_mul_left _ (Nat.pow_le_pow_left (by omega) _))
  refine Nat.le_trans (ha _ _ prev s hB) ?_
  have h2 : 1 ≤ 1 * (s.length + 1) ^ d' * (B + 1) := le_scale 1 _ _ _ _ (by omega)
  have h3 : c' * (s.length + 1) ^ d' * (B + 1) + 1 ≤ (c' + 1) * (s.length + 1) ^ d' * (B + 1) := by
    rw [Nat.add_mul, Nat.add_mul]; omega
  refine Nat.le_trans (Nat.mul_le_mul_left _ h3) (Nat.le_of_eq ?_)
  rw [Nat.pow_add]
  simp only [Nat.mul_assoc, Nat.mul_left_comm, Nat.mul_comm]

theorem deg_alt {a b : Re α} {c d c' d' : Nat} (ha : Deg a c d) (hb : Deg b c' d') :
    Deg (alt a b) (c + c' + 1) (max d d') := by
  intro k B prev s hk
  have h1 := deg_mono ha (Nat.le_refl c) (Nat.le_max_left d d') k B prev s hk
  have h2 := deg_mono hb (Nat.le_refl c') (Nat.le_max_right d d') k B prev s hk
  have h3 : 1 ≤ 1 * (s.length + 1) ^ (max d d') * (B + 1) := le_scale 1 _ _ _ _ (by omega)
  simp only [search, tick]
  have h4 := orTry_le (search a k prev s) (search b k prev s)
  have : (c + c' + 1) * (s.length + 1) ^ (max d d') * (B + 1) = c * (s.length + 1) ^ (max d d') * (B + 1) +
      c' * (s.length + 1) ^ (max d d') * (B + 1) + 1 * (s.length + 1) ^ (max d d') * (B + 1) := by
    rw [Nat.add_mul, Nat.add_mul, Nat.add_mul, Nat.add_mul]
  omega

/-- The head of a text is not in `p`. -/
def Off (p : α → Bool) (s : List α) : Prop := ∀ c, s.head? = some c → p c = false

/-- Repetition of a class, where what remains costs little at the symbols of the class. -/
theorem star_cls_le (g : Bool) (p : α → Bool) (k : Rest α) (b E B : Nat) (hE : b + 2 ≤ E) (n : Nat) : ∀ (prev : Option α) (s : List α),
    (∀ prev' c cs, p c = true → (c :: cs).length ≤ s.length → (k prev' (c :: cs)).1 ≤ b) →
    (∀ prev' s', Off p s' → s'.length ≤ s.length → (k prev' s').1 ≤ s'.length * E + B) →
    (starSearch g (search (cls p)) k n prev s).1 ≤ s.length * E + B + 2 := by
  induction n with
  | zero =>
    intro prev s hb hB
    simp only [starSearch, tick]
    cases s with
    | nil => have := hB prev [] (by intro c h; cases h) (Nat.le_refl _); simp at this ⊢; omega
    | cons c cs =>
      by_cases hp : p c = true
      · have := hb prev c cs hp (Nat.le_refl _)
        simp only [List.length_cons, Nat.add_mul, Nat.one_mul]; omega
      · have := hB prev (c :: cs) (by intro x hx; simp at hx; subst hx; simpa using hp) (Nat.le_refl _)
        omega
  | succ n ih =>
    intro prev s hb hB
    have h4 : ∀ x y : Nat × Bool, (tick (if g then orTry x y else orTry y x)).1 ≤ 1 + x.1 + y.1 := by
      intro x y
      cases g
      · have := orTry_le y x; simp [tick]; omega
      · have := orTry_le x y; simp [tick]; omega
    refine Nat.le_trans (h4 _ _) ?_
    cases s with
    | nil => have := hB prev [] (by intro c h; cases h) (Nat.le_refl _); simp [search] at this ⊢; omega
    | cons c cs =>
      by_cases hp : p c = true
      · have h1 := hb prev c cs hp (Nat.le_refl _)
        have h2 := ih (some c) cs (fun p' x xs hx hl => hb p' x xs hx (by simp at hl ⊢; omega))
          (fun p' s' ho hl => hB p' s' ho (by simp; omega))
        simp only [search, hp, if_true, tick, List.length_cons, Nat.lt_succ_self]
        simp only [Nat.add_mul, Nat.one_mul]
        omega
      · have h1 := hB prev (c :: cs) (by intro x hx; simp at hx; subst hx; simpa using hp) (Nat.le_refl _)
        simp only [search, hp, if_false, Bool.false_eq_true]
        omega

theorem deg_star_cls (g : Bool) (p : α → Bool) : Deg (star g (cls p)) 3 1 := by
  intro k B prev s hk
  simp only [search]
  have := star_cls_le g p k B (B + 2) B (Nat.le_refl _) s.length prev s (fun p' c cs _ hl => hk p' _ hl)
    (fun p' s' _ hl => Nat.le_trans (hk p' s' hl) (by omega))
  refine Nat.le_trans this ?_
  generalize s.length = n
  simp only [Nat.pow_one, Nat.mul_add, Nat.add_mul, Nat.mul_one]
  have : n * B ≤ 3 * n * B := by
    rw [Nat.mul_assoc]; omega
  omega

/-- A repetition whose part cannot begin here. -/
theorem star_head_le (g : Bool) (d : α → Bool) (a : Re α) (k : Rest α) (n : Nat) (prev : Option α) (c : α) (cs : List α)
    (hd : d c = false) : (starSearch g (search (seq (cls d) a)) k n prev (c :: cs)).1 ≤ (k prev (c :: cs)).1 + 2 := by
  cases n with
  | zero => simp [starSearch, tick]
  | succ n =>
    simp only [starSearch, search, hd, Bool.false_eq_true, if_false]
    cases g
    · have := orTry_le (k prev (c :: cs)) (1, false); simp [tick]; omega
    · have := orTry_le (1, false) (k prev (c :: cs)); simp [tick]; omega

/-- Repetition of a class, where what remains is always matched. -/
theorem star_succ (p : α → Bool) (k : Rest α) (B : Nat) (hs : ∀ prev' s', (k prev' s').2 = true) (n : Nat) :
    ∀ (prev : Option α) (s : List α), (∀ prev' s', s'.length ≤ s.length → (k prev' s').1 ≤ B) →
    (starSearch true (search (cls p)) k n prev s).1 ≤ 2 * s.length + B + 2 ∧
    (starSearch true (search (cls p)) k n prev s).2 = true := by
  induction n with
  | zero => intro prev s hk; have := hk prev s (Nat.le_refl _); simp [starSearch, tick, hs]; omega
  | succ n ih =>
    intro prev s hk
    have h0 := hk prev s (Nat.le_refl _)
    have hs0 := hs prev s
    cases s with
    | nil => simp [starSearch, search, tick, orTry, hs0]; omega
    | cons c cs =>
      by_cases hp : p c = true
      · obtain ⟨h1, h2⟩ := ih (some c) cs (fun p' s' hl => hk p' s' (by simp; omega))
        simp only [starSearch, search, hp, if_true, List.length_cons, Nat.lt_succ_self, tick, orTry, h2]
        simp only [and_true]
        omega
      · simp [starSearch, search, hp, tick, orTry, hs0]; omega

/-- Repetition of a class, where what remains costs little where it fails at a symbol of the class. -/
theorem star_fail_le (p : α → Bool) (k : Rest α) (b B : Nat) (n : Nat) : ∀ (prev : Option α) (s : List α),
    (∀ prev' c cs, p c = true → (c :: cs).length ≤ s.length → (k prev' (c :: cs)).2 = false → (k prev' (c :: cs)).1 ≤ b) →
    (∀ prev' s', s'.length ≤ s.length → (k prev' s').1 ≤ B) →
    (starSearch true (search (cls p)) k n prev s).1 ≤ s.length * (b + 2) + B + 2 +
      (if (starSearch true (search (cls p)) k n prev s).2 then B else 0) := by
  induction n with
  | zero => intro prev s _ hk; have := hk prev s (Nat.le_refl _); simp only [starSearch, tick]; omega
  | succ n ih =>
    intro prev s hb hk
    have h0 := hk prev s (Nat.le_refl _)
    cases s with
    | nil => simp only [starSearch, search, tick, orTry, if_true, Bool.false_eq_true, if_false]; omega
    | cons c cs =>
      by_cases hp : p c = true
      · have h1 := ih (some c) cs (fun p' x xs hx hl => hb p' x xs hx (by simp at hl ⊢; omega))
          (fun p' s' hl => hk p' s' (by simp; omega))
        have h2 := hb prev c cs hp (Nat.le_refl _)
        simp only [starSearch, search, hp, if_true, List.length_cons, Nat.lt_succ_self, tick, orTry, Nat.add_mul, Nat.one_mul]
        generalize starSearch true (search (cls p)) k n (some c) cs = X at h1 ⊢
        generalize k prev (c :: cs) = Y at h0 h2 ⊢
        obtain ⟨x, bx⟩ := X
        obtain ⟨y, b_y⟩ := Y
        cases bx <;> cases b_y <;> simp at h0 h1 h2 ⊢ <;> omega
      · simp only [starSearch, search, hp, tick, orTry, if_true, Bool.false_eq_true, if_false]; omega

/-- Repetition of parts that begin with a symbol of `d`, followed by one of `x` and any number of `p`. -/
theorem star_sep_le (g : Bool) (d x p : α → Bool) (hdp : ∀ c, d c = true → p c = false) (k : Rest α) (b B : Nat) (n : Nat) :
    ∀ (prev : Option α) (s : List α),
    (∀ prev' c cs, (p c || d c) = true → (c :: cs).length ≤ s.length → (k prev' (c :: cs)).1 ≤ b) →
    (∀ prev' s', Off (fun c => p c || d c) s' → s'.length ≤ s.length → (k prev' s').1 ≤ B) →
    (starSearch g (search (seq (cls d) (seq (cls x) (star true (cls p))))) k n prev s).1 ≤ s.length * (b + 4) + B + 2 := by
  have head := fun n prev c cs hd => star_head_le g d (seq (cls x) (star true (cls p))) k n prev c cs hd
  induction n with
  | zero =>
    intro prev s hb hB
    simp only [starSearch, tick]
    cases s with
    | nil => have := hB prev [] (by intro c h; cases h) (Nat.le_refl _); simp at this ⊢; omega
    | cons c cs =>
      by_cases hp : (p c || d c) = true
      · have := hb prev c cs hp (Nat.le_refl _)
        simp only [List.length_cons, Nat.add_mul, Nat.one_mul]; omega
      · have := hB prev (c :: cs) (by intro y hy; simp at hy; subst hy; simpa using hp) (Nat.le_refl _)
        omega
  | succ n ih =>
    intro prev s hb hB
    have h4 : ∀ x y : Nat × Bool, (tick (if g then orTry x y else orTry y x)).1 ≤ 1 + x.1 + y.1 := by
      intro x y
      cases g
      · have := orTry_le y x; simp [tick]; omega
      · have := orTry_le x y; simp [tick]; omega
    cases s with
    | nil =>
      refine Nat.le_trans (h4 _ _) ?_
      have := hB prev [] (by intro c h; cases h) (Nat.le_refl _); simp [search] at this ⊢; omega
    | cons c cs =>
      by_cases hd : d c = true
      · refine Nat.le_trans (h4 _ _) ?_
        have h1 := hb prev c cs (by simp [hd]) (Nat.le_refl _)
        have h2 : (search (seq (cls d) (seq (cls x) (star true (cls p)))) (fun prev' s' => if s'.length < (c :: cs).length then
            starSearch g (search (seq (cls d) (seq (cls x) (star true (cls p))))) k n prev' s' else (0, false)) prev (c :: cs)).1 ≤
            cs.length * (b + 4) + B + 2 := by
          simp only [search, hd, if_true]
          cases cs with
          | nil => simp [search, tick]
          | cons y ys =>
            simp only [search]
            by_cases hx : x y = true
            · simp only [hx, if_true, tick]
              refine Nat.le_trans (Nat.add_le_add_right (Nat.add_le_add_right (star_cls_le true p (fun prev' s' =>
                  if s'.length < (c :: y :: ys).length then
                  starSearch g (search (seq (cls d) (seq (cls x) (star true (cls p))))) k n prev' s' else (0, false)) (b + 2) (b + 4)
                (B + 2) (by omega) ys.length (some y) ys ?_ ?_) 1) 1) ?_
              · intro p' z zs hz hl
                have hd' : d z = false := by
                  cases h : d z with
                  | false => rfl
                  | true => rw [hdp z h] at hz; cases hz
                split
                · refine Nat.le_trans (head n p' z zs hd') ?_
                  have := hb p' z zs (by simp [hz]) (by simp at hl ⊢; omega)
                  omega
                · exact Nat.zero_le _
              · intro p' s' ho hl
                split
                · have := ih p' s' (fun p'' z zs hz hl' => hb p'' z zs hz (by simp at hl' ⊢; omega))
                    (fun p'' s'' ho' hl' => hB p'' s'' ho' (by simp; omega))
                  omega
                · exact Nat.zero_le _
              · simp only [List.length_cons, Nat.add_mul, Nat.one_mul]
                omega
            · simp [hx, tick]
        simp only [List.length_cons, Nat.add_mul, Nat.one_mul]
        generalize (search (seq (cls d) (seq (cls x) (star true (cls p)))) _ prev (c :: cs)).1 = X at h2 ⊢
        omega
      · have hd' : d c = false := by simpa using hd
        refine Nat.le_trans (head (n + 1) prev c cs hd') ?_
        by_cases hp : p c = true
        · have := hb prev c cs (by simp [hp]) (Nat.le_refl _)
          simp only [List.length_cons, Nat.add_mul, Nat.one_mul]; omega
        · have := hB prev (c :: cs) (by intro y hy; simp at hy; subst hy; simp [hp, hd']) (Nat.le_refl _)
          omega

theorem deg_star_sep (g : Bool) (d x p : α → Bool) (hdp : ∀ c, d c = true → p c = false) :
    Deg (star g (seq (cls d) (seq (cls x) (star true (cls p))))) 4 1 := by
  intro k B prev s hk
  simp only [search]
  have := star_sep_le g d x p hdp k B B s.length prev s (fun p' c cs _ hl => hk p' _ hl) (fun p' s' _ hl => hk p' s' hl)
  refine Nat.le_trans this ?_
  generalize s.length = n
  simp only [Nat.pow_one, Nat.mul_add, Nat.add_mul, Nat.mul_one]
  have : n * B ≤ 4 * n * B := by
    rw [Nat.mul_assoc]; omega
  omega

/-- Repetition of a part that matches in one way at most and costs little. -/
theorem deg_star_once (g : Bool) (a : Re α) (A : Nat) (ha : ∀ (k : Rest α) (B : Nat) (prev : Option α) (s : List α),
    (∀ prev' s', s'.length < s.length → (k prev' s').1 ≤ B) → (∀ prev' s', s.length ≤ s'.length → (k prev' s').1 = 0) →
    (search a k prev s).1 ≤ A + B) : Deg (star g a) (A + 2) 1 := by
  intro k B prev s hk
  simp only [search]
  have key : ∀ (n : Nat) (prev : Option α) (s' : List α), s'.length ≤ s.length →
      (starSearch g (search a) k n prev s').1 ≤ (s'.length + 1) * (A + 2 + B) := by
    intro n
    induction n with
    | zero =>
      intro prev s' hl
      have := hk prev s' hl
      simp only [starSearch, tick, Nat.add_mul, Nat.one_mul]; omega
    | succ n ih =>
      intro prev s' hl
      have h4 : ∀ x y : Nat × Bool, (tick (if g then orTry x y else orTry y x)).1 ≤ 1 + x.1 + y.1 := by
        intro x y
        cases g
        · have := orTry_le y x; simp [tick]; omega
        · have := orTry_le x y; simp [tick]; omega
      refine Nat.le_trans (h4 _ _) ?_
      have h1 := hk prev s' hl
      have h2 := ha (fun prev' t => if t.length < s'.length then starSearch g (search a) k n prev' t else (0, false))
        (s'.length * (A + 2 + B)) prev s' ?_ ?_
      · generalize (search a _ prev s').1 = X at h2 ⊢
        simp only [Nat.add_mul, Nat.one_mul] at h2 ⊢
        omega
      · intro p' t ht
        rw [if_pos ht]
        refine Nat.le_trans (ih p' t (by omega)) (Nat.mul_le_mul_right _ (by omega))
      · intro p' t ht
        rw [if_neg (by omega)]
  refine Nat.le_trans (key s.length prev s (Nat.le_refl _)) ?_
  generalize s.length = n
  simp only [Nat.pow_one]
  rw [Nat.mul_comm (A + 2) (n + 1), Nat.mul_assoc]
  refine Nat.mul_le_mul_left _ ?_
  simp only [Nat.mul_add, Nat.add_mul, Nat.mul_one]
  have : B ≤ A * B + 2 * B := by omega
  omega

/-! ### Patterns whose repetitions do not contain repetitions -/

/-- Only classes are repeated. -/
def flat : Re α → Bool
  | seq a b => flat a && flat b
  | alt a b => flat a && flat b
  | star _ (cls _) => true
  | star _ _ => false
  | grp _ a => flat a
  | _ => true

/-- How many repetitions can follow each other. -/
def degree : Re α → Nat
  | seq a b => degree a + degree b
  | alt a b => max (degree a) (degree b)
  | star _ _ => 1
  | grp _ a => degree a
  | _ => 0

theorem flat_deg (r : Re α) (h : flat r = true) : ∃ c, Deg r c (degree r) := by
  induction r with
  | eps => exact ⟨1, deg_eps⟩
  | cls p => exact ⟨1, deg_cls p⟩
  | seq a b iha ihb =>
    simp only [flat, Bool.and_eq_true] at h
    obtain ⟨c, hc⟩ := iha h.1
    obtain ⟨c', hc'⟩ := ihb h.2
    exact ⟨_, deg_seq hc hc'⟩
  | alt a b iha ihb =>
    simp only [flat, Bool.and_eq_true] at h
    obtain ⟨c, hc⟩ := iha h.1
    obtain ⟨c', hc'⟩ := ihb h.2
    exact ⟨_, deg_alt hc hc'⟩
  | star g a iha =>
    cases a with
    | cls p => exact ⟨3, deg_star_cls g p⟩
    | _ => simp [flat] at h
  | grp n a iha =>
    obtain ⟨c, hc⟩ := iha h
    exact ⟨_, deg_grp n hc⟩
  | eos nl => exact ⟨1, deg_eos nl⟩
  | notAfter p => exact ⟨1, deg_notAfter p⟩

theorem attempts_le {r : Re α} {c d : Nat} (h : Deg r c d) (prev : Option α) (s : List α) :
    attempts r prev s ≤ c * (s.length + 1) ^ d := by
  have := h done 0 prev s (fun _ _ _ => Nat.le_refl _)
  simpa [attempts] using this

end Verif.Re
