import Verif.Regex
/-! Facts about the backtracking matcher (helper lemmas). -/
namespace Verif.Re
variable {α : Type}

/-- Every match splits the input. -/
theorem run_split (r : Re α) : ∀ prev s, ∀ m ∈ run r prev s, m.txt ++ m.rest = s := by
  induction r with
  | eps => intro prev s m h; simp [run] at h; subst h; rfl
  | cls p =>
    intro prev s m h
    cases s with
    | nil => simp [run] at h
    | cons c cs => simp only [run] at h; split at h <;> simp at h; subst h; rfl
  | seq a b iha ihb =>
    intro prev s m h
    simp only [run, List.mem_flatMap, andThen, List.mem_map] at h
    obtain ⟨m1, h1, m2, h2, rfl⟩ := h
    have := iha _ _ _ h1
    have h3 := ihb _ _ _ h2
    simp [← this, ← h3]
  | alt a b iha ihb =>
    intro prev s m h
    simp only [run, List.mem_append] at h
    rcases h with h | h
    · exact iha _ _ _ h
    · exact ihb _ _ _ h
  | star g a iha =>
    have key : ∀ n prev s, ∀ m ∈ starRun g (run a) n prev s, m.txt ++ m.rest = s := by
      intro n
      induction n with
      | zero => intro prev s m h; simp [starRun] at h; subst h; rfl
      | succ n ih =>
        intro prev s m h
        have : m = ⟨[], s, []⟩ ∨ m ∈ ((run a prev s).filter fun m => !m.txt.isEmpty).flatMap
            (andThen (starRun g (run a) n) prev) := by
          cases g <;> simp only [starRun] at h <;> simp at h <;> simp <;> grind
        rcases this with rfl | h
        · rfl
        · simp only [List.mem_flatMap, andThen, List.mem_map, List.mem_filter] at h
          obtain ⟨m1, ⟨h1, _⟩, m2, h2, rfl⟩ := h
          have := iha _ _ _ h1
          have h3 := ih _ _ _ h2
          simp [← this, ← h3]
    intro prev s m h
    exact key _ _ _ _ h
  | grp n a iha =>
    intro prev s m h
    simp only [run, List.mem_map] at h
    obtain ⟨m1, h1, rfl⟩ := h
    exact iha _ _ m1 h1
  | eos nl =>
    intro prev s m h
    cases s with
    | nil => simp [run] at h; subst h; rfl
    | cons c cs => simp only [run] at h; split at h <;> simp at h; subst h; rfl
  | notAfter p =>
    intro prev s m h
    cases prev with
    | none => simp [run] at h; subst h; rfl
    | some c => simp only [run] at h; split at h <;> simp at h; subst h; rfl

/-! ### repetition of a character class -/

/-- Prefixes of the longest `p`-prefix, longest first. -/
def cutsG (p : α → Bool) : List α → List (M α)
  | [] => [⟨[], [], []⟩]
  | c :: cs =>
    if p c then (cutsG p cs).map (fun m => ⟨c :: m.txt, m.rest, m.caps⟩) ++ [⟨[], c :: cs, []⟩]
    else [⟨[], c :: cs, []⟩]

/-- The same, shortest first. -/
def cutsL (p : α → Bool) : List α → List (M α)
  | [] => [⟨[], [], []⟩]
  | c :: cs =>
    if p c then ⟨[], c :: cs, []⟩ :: (cutsL p cs).map (fun m => ⟨c :: m.txt, m.rest, m.caps⟩)
    else [⟨[], c :: cs, []⟩]

theorem starRun_cls_greedy (p : α → Bool) (n : Nat) : ∀ (prev : Option α) (s : List α), s.length ≤ n →
    starRun true (run (cls p)) n prev s = cutsG p s := by
  induction n with
  | zero => intro prev s h; have : s = [] := by simpa using h
            subst this; rfl
  | succ n ih =>
    intro prev s h
    cases s with
    | nil => simp [starRun, run, cutsG]
    | cons c cs =>
      simp only [starRun, run, cutsG, if_true]
      by_cases hp : p c = true
      · simp only [hp, if_true]
        simp [andThen, ih _ cs (by simpa using h)]
      · simp [hp]

theorem starRun_cls_lazy (p : α → Bool) (n : Nat) : ∀ (prev : Option α) (s : List α), s.length ≤ n →
    starRun false (run (cls p)) n prev s = cutsL p s := by
  induction n with
  | zero => intro prev s h; have : s = [] := by simpa using h
            subst this; rfl
  | succ n ih =>
    intro prev s h
    cases s with
    | nil => simp [starRun, run, cutsL]
    | cons c cs =>
      simp only [starRun, run, cutsL]
      by_cases hp : p c = true
      · simp only [hp, if_true]
        simp [andThen, ih _ cs (by simpa using h)]
      · simp [hp]

theorem run_star_cls (p : α → Bool) (prev : Option α) (s : List α) :
    run (star true (cls p)) prev s = cutsG p s := starRun_cls_greedy p _ _ _ (Nat.le_refl _)

theorem run_lazy_cls (p : α → Bool) (prev : Option α) (s : List α) :
    run (star false (cls p)) prev s = cutsL p s := starRun_cls_lazy p _ _ _ (Nat.le_refl _)

theorem cutsG_split (p : α → Bool) (a b : List α) (ha : ∀ c ∈ a, p c = true) :
    cutsG p (a ++ b) = (cutsG p b).map (fun m => ⟨a ++ m.txt, m.rest, m.caps⟩) ++
      (((List.range a.length).reverse).map fun i => ⟨a.take i, a.drop i ++ b, []⟩) := by
  induction a with
  | nil => simp
  | cons c cs ih =>
    have hc : p c = true := ha c (by simp)
    simp only [List.cons_append, cutsG, hc, if_true]
    rw [ih (fun x hx => ha x (by simp [hx]))]
    rw [show (c :: cs).length = cs.length + 1 from rfl, List.range_succ_eq_map]
    simp [Function.comp_def]

theorem cutsL_split (p : α → Bool) (a b : List α) (ha : ∀ c ∈ a, p c = true) :
    cutsL p (a ++ b) = ((List.range a.length).map fun i => ⟨a.take i, a.drop i ++ b, []⟩) ++
      (cutsL p b).map (fun m => ⟨a ++ m.txt, m.rest, m.caps⟩) := by
  induction a with
  | nil => simp
  | cons c cs ih =>
    have hc : p c = true := ha c (by simp)
    simp only [List.cons_append, cutsL, hc, if_true]
    rw [ih (fun x hx => ha x (by simp [hx]))]
    rw [show (c :: cs).length = cs.length + 1 from rfl, List.range_succ_eq_map]
    simp [Function.comp_def]

theorem cutsG_stop (p : α → Bool) (b : List α) (hb : ∀ c, b.head? = some c → p c = false) :
    cutsG p b = [⟨[], b, []⟩] := by
  cases b with
  | nil => rfl
  | cons c cs => simp [cutsG, hb c rfl]

theorem cutsL_stop (p : α → Bool) (b : List α) (hb : ∀ c, b.head? = some c → p c = false) :
    cutsL p b = [⟨[], b, []⟩] := by
  cases b with
  | nil => rfl
  | cons c cs => simp [cutsL, hb c rfl]

theorem mem_cutsG (p : α → Bool) (s : List α) : ∀ m ∈ cutsG p s,
    m.txt ++ m.rest = s ∧ (∀ c ∈ m.txt, p c = true) ∧ m.caps = [] := by
  induction s with
  | nil => intro m h; simp [cutsG] at h; subst h; simp
  | cons c cs ih =>
    intro m h
    simp only [cutsG] at h
    split at h
    · rename_i hp
      simp only [List.mem_append, List.mem_map, List.mem_singleton] at h
      rcases h with ⟨m', h', rfl⟩ | rfl
      · obtain ⟨h1, h2, h3⟩ := ih m' h'
        refine ⟨by simp [h1], ?_, h3⟩
        intro x hx; simp at hx; rcases hx with rfl | hx
        · exact hp
        · exact h2 x hx
      · simp
    · simp at h; subst h; simp

theorem mem_cutsL (p : α → Bool) (s : List α) : ∀ m ∈ cutsL p s,
    m.txt ++ m.rest = s ∧ (∀ c ∈ m.txt, p c = true) ∧ m.caps = [] := by
  induction s with
  | nil => intro m h; simp [cutsL] at h; subst h; simp
  | cons c cs ih =>
    intro m h
    simp only [cutsL] at h
    split at h
    · rename_i hp
      simp only [List.mem_cons, List.mem_map] at h
      rcases h with rfl | ⟨m', h', rfl⟩
      · simp
      · obtain ⟨h1, h2, h3⟩ := ih m' h'
        refine ⟨by simp [h1], ?_, h3⟩
        intro x hx; simp at hx; rcases hx with rfl | hx
        · exact hp
        · exact h2 x hx
    · simp at h; subst h; simp

/-- The greedy repetition always succeeds. -/
theorem cutsG_ne_nil (p : α → Bool) (s : List α) : cutsG p s ≠ [] := by
  cases s with
  | nil => simp [cutsG]
  | cons c cs => simp only [cutsG]; split <;> simp

/-! ### heads -/

/-- The first success of a sequence: skip the matches of the first part after which the
second part fails. -/
theorem head_flatMap {β γ} (f : β → List γ) (l1 : List β) (x : β) (l2 : List β)
    (hfail : ∀ y ∈ l1, f y = []) (hx : f x ≠ []) :
    ((l1 ++ x :: l2).flatMap f).head? = (f x).head? := by
  have : (l1.flatMap f) = [] := by
    rw [List.flatMap_eq_nil_iff]; exact hfail
  rw [List.flatMap_append, this, List.nil_append, List.flatMap_cons]
  cases h : f x with
  | nil => exact absurd h hx
  | cons a as => simp

theorem flatMap_fail {β γ} (f : β → List γ) (l : List β) (hfail : ∀ y ∈ l, f y = []) :
    l.flatMap f = [] := by
  rw [List.flatMap_eq_nil_iff]; exact hfail

theorem andThen_eq_nil {f : Option α → List α → List (M α)} {prev : Option α} {m : M α} :
    andThen f prev m = [] ↔ f (after prev m.txt) m.rest = [] := by
  simp [andThen]

/-- Matching a literal. -/
theorem run_lit [DecidableEq α] (w : List α) : ∀ (prev : Option α) (s : List α),
    run (lit w) prev s = if w <+: s then [⟨w, s.drop w.length, []⟩] else [] := by
  induction w with
  | nil => intro prev s; simp [lit, run]
  | cons c cs ih =>
    intro prev s
    cases s with
    | nil => cases cs <;> simp [lit, run]
    | cons d ds =>
      cases cs with
      | nil =>
        simp only [lit, run]
        by_cases h : d = c
        · subst h; simp
        · have : ¬ c = d := fun e => h e.symm
          simp [h, this]
      | cons c' cs' =>
        simp only [lit, run]
        by_cases h : d = c
        · subst h
          simp only [beq_self_eq_true, if_true, List.flatMap_cons, List.flatMap_nil,
            List.append_nil, andThen, ih]
          by_cases hp : c' :: cs' <+: ds <;> simp [hp, List.prefix_cons_iff]
        · have : ¬ c = d := fun e => h e.symm
          simp [h, this]

theorem run_lit_append [DecidableEq α] (w s : List α) (prev : Option α) :
    run (lit w) prev (w ++ s) = [⟨w, s, []⟩] := by
  rw [run_lit]; simp

/-! ### first successes -/

/-- The engine's answer is `m`. -/
def Starts (r : Re α) (prev : Option α) (s : List α) (m : M α) : Prop :=
  ∃ ms, run r prev s = m :: ms

theorem Starts.first {r : Re α} {prev : Option α} {s : List α} {m : M α} (h : Starts r prev s m) :
    first r prev s = some m := by
  obtain ⟨ms, h⟩ := h; simp [Re.first, h]

theorem starts_iff_head {r : Re α} {prev : Option α} {s : List α} {m : M α} :
    Starts r prev s m ↔ (run r prev s).head? = some m := by
  constructor
  · rintro ⟨ms, h⟩; simp [h]
  · intro h
    cases hr : run r prev s with
    | nil => simp [hr] at h
    | cons a as => simp [hr] at h; exact ⟨as, by rw [hr, h]⟩

/-- Sequence of two matches. -/
def M.comb (m m' : M α) : M α := ⟨m.txt ++ m'.txt, m'.rest, m'.caps ++ m.caps⟩

theorem starts_seq {a b : Re α} {prev : Option α} {s : List α} {m m' : M α}
    (ha : Starts a prev s m) (hb : Starts b (after prev m.txt) m.rest m') :
    Starts (seq a b) prev s (m.comb m') := by
  obtain ⟨ms, ha⟩ := ha
  obtain ⟨ms', hb⟩ := hb
  exact ⟨ms'.map (fun x => m.comb x) ++ ms.flatMap (andThen (run b) prev), by
    simp [run, ha, andThen, hb, M.comb]⟩

/-- Skipping the matches of the first part that cannot be continued. -/
theorem starts_seq_skip {a b : Re α} {prev : Option α} {s : List α} {m m' : M α} {l1 l2 : List (M α)}
    (ha : run a prev s = l1 ++ m :: l2) (hf : ∀ x ∈ l1, run b (after prev x.txt) x.rest = [])
    (hb : Starts b (after prev m.txt) m.rest m') : Starts (seq a b) prev s (m.comb m') := by
  rw [starts_iff_head]
  simp only [run, ha]
  obtain ⟨ms', hb⟩ := hb
  rw [head_flatMap]
  · simp [andThen, hb, M.comb]
  · intro y hy; rw [andThen_eq_nil]; exact hf y hy
  · simp [andThen, hb]

theorem starts_altl {a b : Re α} {prev : Option α} {s : List α} {m : M α}
    (ha : Starts a prev s m) : Starts (alt a b) prev s m := by
  obtain ⟨ms, ha⟩ := ha
  exact ⟨ms ++ run b prev s, by simp [run, ha]⟩

theorem starts_altr {a b : Re α} {prev : Option α} {s : List α} {m : M α}
    (ha : run a prev s = []) (hb : Starts b prev s m) : Starts (alt a b) prev s m := by
  obtain ⟨ms, hb⟩ := hb
  exact ⟨ms, by simp [run, ha, hb]⟩

theorem starts_grp {a : Re α} {prev : Option α} {s : List α} {m : M α} (n : Nat)
    (ha : Starts a prev s m) : Starts (grp n a) prev s ⟨m.txt, m.rest, (n, m.txt) :: m.caps⟩ := by
  obtain ⟨ms, ha⟩ := ha
  exact ⟨ms.map fun m => { m with caps := (n, m.txt) :: m.caps }, by simp [run, ha]⟩

theorem starts_eps {prev : Option α} {s : List α} : Starts eps prev s ⟨[], s, []⟩ := ⟨[], rfl⟩

theorem starts_cls {p : α → Bool} {prev : Option α} {c : α} {s : List α} (h : p c = true) :
    Starts (cls p) prev (c :: s) ⟨[c], s, []⟩ := ⟨[], by simp [run, h]⟩

theorem starts_lit [DecidableEq α] {w s : List α} {prev : Option α} :
    Starts (lit w) prev (w ++ s) ⟨w, s, []⟩ := ⟨[], run_lit_append w s prev⟩

theorem starts_eos {nl : α → Bool} {prev : Option α} : Starts (eos nl) prev [] ⟨[], [], []⟩ := ⟨[], rfl⟩

/-- A greedy class repetition takes the longest stretch. -/
theorem starts_star {p : α → Bool} {prev : Option α} {a b : List α} (ha : ∀ c ∈ a, p c = true)
    (hb : ∀ c, b.head? = some c → p c = false) : Starts (star true (cls p)) prev (a ++ b) ⟨a, b, []⟩ := by
  refine ⟨((List.range a.length).reverse).map fun i => ⟨a.take i, a.drop i ++ b, []⟩, ?_⟩
  rw [run_star_cls, cutsG_split p a b ha, cutsG_stop p b hb]
  simp

/-- A greedy class repetition followed by `b`, giving back nothing. -/
theorem run_cls_nil {p : α → Bool} {prev : Option α} : run (cls p) prev ([] : List α) = [] := rfl

theorem run_cls_ne {p : α → Bool} {prev : Option α} {s : List α}
    (h : ∀ c, s.head? = some c → p c = false) : run (cls p) prev s = [] := by
  cases s with
  | nil => rfl
  | cons c cs => simp [run, h c rfl]

theorem run_seq_nil {a b : Re α} {prev : Option α} {s : List α} (h : run a prev s = []) :
    run (seq a b) prev s = [] := by simp [run, h]

theorem run_seq_nil' {a b : Re α} {prev : Option α} {s : List α}
    (h : ∀ m ∈ run a prev s, run b (after prev m.txt) m.rest = []) : run (seq a b) prev s = [] := by
  simp only [run]
  apply flatMap_fail
  intro m hm
  rw [andThen_eq_nil]; exact h m hm

theorem run_alt_nil {a b : Re α} {prev : Option α} {s : List α} (ha : run a prev s = [])
    (hb : run b prev s = []) : run (alt a b) prev s = [] := by simp [run, ha, hb]

theorem run_grp_nil {a : Re α} {prev : Option α} {s : List α} {n : Nat} (ha : run a prev s = []) :
    run (grp n a) prev s = [] := by simp [run, ha]

/-- A lazy class repetition in a group takes the shortest stretch after which the rest of
the pattern matches. -/
theorem starts_lazy_grp {p : α → Bool} {prev : Option α} {a b : List α} {r : Re α} {n : Nat} {m : M α}
    (ha : ∀ c ∈ a, p c = true)
    (hf : ∀ x y, a = x ++ y → y ≠ [] → run r (after prev x) (y ++ b) = [])
    (hr : Starts r (after prev a) b m) :
    Starts (seq (grp n (star false (cls p))) r) prev (a ++ b) ⟨a ++ m.txt, m.rest, m.caps ++ [(n, a)]⟩ := by
  have hb : ∃ l2, cutsL p b = ⟨[], b, []⟩ :: l2 := by
    cases b with
    | nil => exact ⟨[], rfl⟩
    | cons c cs => simp only [cutsL]; split <;> simp
  obtain ⟨l2, hb⟩ := hb
  refine starts_seq_skip (m := ⟨a, b, [(n, a)]⟩)
    (l1 := (List.range a.length).map fun i => ⟨a.take i, a.drop i ++ b, [(n, a.take i)]⟩)
    (l2 := l2.map fun m => ⟨a ++ m.txt, m.rest, (n, a ++ m.txt) :: m.caps⟩) ?_ ?_ hr
  · simp only [run]
    rw [show starRun false (run (cls p)) (a ++ b).length prev (a ++ b) = cutsL p (a ++ b) from
      run_lazy_cls p prev (a ++ b), cutsL_split p a b ha, hb]
    simp [Function.comp_def]
  · intro x hx
    simp only [List.mem_map, List.mem_range] at hx
    obtain ⟨i, hi, rfl⟩ := hx
    apply hf (a.take i) (a.drop i) (by simp)
    intro h
    have := congrArg List.length h
    simp at this; omega

/-- A greedy class repetition in a group takes the longest stretch, if the rest of the
pattern matches after it. -/
theorem starts_star_grp {p : α → Bool} {prev : Option α} {a b : List α} {n : Nat}
    (ha : ∀ c ∈ a, p c = true) (hb : ∀ c, b.head? = some c → p c = false) :
    Starts (grp n (star true (cls p))) prev (a ++ b) ⟨a, b, [(n, a)]⟩ :=
  starts_grp n (starts_star ha hb)

/-- A greedy `p+` takes the longest stretch. -/
theorem starts_plus {p : α → Bool} {prev : Option α} {a b : List α} (hne : a ≠ [])
    (ha : ∀ c ∈ a, p c = true) (hb : ∀ c, b.head? = some c → p c = false) :
    Starts (plus (cls p)) prev (a ++ b) ⟨a, b, []⟩ := by
  cases a with
  | nil => exact absurd rfl hne
  | cons c cs =>
    have h1 := starts_cls (prev := prev) (s := cs ++ b) (ha c (by simp))
    have h2 := starts_star (p := p) (prev := after prev [c]) (a := cs) (b := b)
      (fun x hx => ha x (by simp [hx])) hb
    have := starts_seq h1 h2
    simpa [M.comb, plus] using this

/-! ### general greedy repetition -/

theorem starRun_nil (g : Bool) (f : Option α → List α → List (M α))
    (hf : ∀ prev s, ∀ m ∈ f prev s, m.txt ++ m.rest = s) (n : Nat) (prev : Option α) :
    starRun g f n prev [] = [⟨[], [], []⟩] := by
  cases n with
  | zero => rfl
  | succ n =>
    have : ((f prev []).filter fun m => !m.txt.isEmpty) = [] := by
      rw [List.filter_eq_nil_iff]
      intro m hm
      have := hf _ _ m hm
      simp at this; simp [this.1]
    cases g <;> simp [starRun, this]

theorem starRun_fuel (g : Bool) (f : Option α → List α → List (M α))
    (hf : ∀ prev s, ∀ m ∈ f prev s, m.txt ++ m.rest = s) (n : Nat) :
    ∀ n' prev s, s.length ≤ n → s.length ≤ n' → starRun g f n prev s = starRun g f n' prev s := by
  induction n with
  | zero =>
    intro n' prev s h h'
    have hnil : s = [] := List.length_eq_zero_iff.mp (by omega)
    subst hnil
    rw [starRun_nil g f hf, starRun_nil g f hf]
  | succ n ih =>
    intro n' prev s h h'
    cases n' with
    | zero =>
      have hnil : s = [] := List.length_eq_zero_iff.mp (by omega)
      subst hnil
      rw [starRun_nil g f hf, starRun_nil g f hf]
    | succ n' =>
      have key : ((f prev s).filter fun m => !m.txt.isEmpty).flatMap (andThen (starRun g f n) prev) =
          ((f prev s).filter fun m => !m.txt.isEmpty).flatMap (andThen (starRun g f n') prev) := by
        simp only [List.flatMap_def]
        congr 1
        apply List.map_congr_left
        intro m hm
        simp only [List.mem_filter] at hm
        have hsp := congrArg List.length (hf _ _ m hm.1)
        have hne : m.txt ≠ [] := by simpa using hm.2
        have : 0 < m.txt.length := List.length_pos_iff.mpr hne
        simp at hsp
        simp only [andThen]
        rw [ih n' _ _ (by omega) (by omega)]
      simp only [starRun, key]

theorem starts_star_stop {a : Re α} {prev : Option α} {s : List α} (h : run a prev s = []) :
    Starts (star true a) prev s ⟨[], s, []⟩ := by
  simp only [Starts, run]
  cases s with
  | nil => exact ⟨[], rfl⟩
  | cons c cs => exact ⟨[], by simp [starRun, h]⟩

/-- One more round of a greedy repetition. -/
theorem starts_star_more {a : Re α} {prev : Option α} {s : List α} {m m' : M α} (hne : m.txt ≠ [])
    (ha : Starts a prev s m) (hs : Starts (star true a) (after prev m.txt) m.rest m') :
    Starts (star true a) prev s (m.comb m') := by
  obtain ⟨ms, ha⟩ := ha
  obtain ⟨ms', hs⟩ := hs
  have hsp := run_split a prev s m (by rw [ha]; simp)
  have hlen : 0 < m.txt.length := List.length_pos_iff.mpr hne
  obtain ⟨k, hk⟩ : ∃ k, s.length = k + 1 := ⟨s.length - 1, by
    have := congrArg List.length hsp; simp at this; omega⟩
  have hfuel : starRun true (run a) k (after prev m.txt) m.rest = m' :: ms' := by
    rw [← hs]
    simp only [run]
    apply starRun_fuel _ _ (run_split a)
    · have := congrArg List.length hsp; simp at this; omega
    · omega
  have hne' : m.txt.isEmpty = false := by
    cases h : m.txt with
    | nil => exact absurd h hne
    | cons => rfl
  simp only [Starts, run, hk, starRun, ha, if_true, List.filter_cons, hne', Bool.not_false,
    List.flatMap_cons, andThen, hfuel, List.map_cons, List.cons_append]
  exact ⟨_, rfl⟩

end Verif.Re
