import Verif.Py
/-! Facts about the Python primitives (helper lemmas, not properties). -/
namespace Verif.Py

theorem map_eq_self {α} {f : α → α} {l : List α} : l.map f = l ↔ ∀ x ∈ l, f x = x := by
  induction l with
  | nil => simp
  | cons x xs ih => simp [ih]

/-! ### replace -/

theorem replace_nil (o n : Str) : replace o n [] = [] := by simp [replace, replaceGo]

theorem replaceGo_skip (o n : Str) (k : Nat) (s : Str) :
    replaceGo o n k s = replaceGo o n 0 (s.drop k) := by
  induction s generalizing k with
  | nil => cases k <;> simp [replaceGo]
  | cons c cs ih => cases k with
    | zero => simp
    | succ k => simp [replaceGo, ih k]

theorem replace_char (c : Char) (n s : Str) :
    replace [c] n s = s.flatMap (fun x => if x = c then n else [x]) := by
  unfold replace
  induction s with
  | nil => simp [replaceGo]
  | cons x xs ih =>
    simp only [replaceGo, List.isPrefixOf, List.flatMap_cons]
    by_cases h : x = c
    · subst h; simp [ih]
    · have : (c == x) = false := by simpa using fun h' => h h'.symm
      simp [this, h, ih]

theorem replace2_hit (a b : Char) (n t : Str) :
    replace [a, b] n (a :: b :: t) = n ++ replace [a, b] n t := by
  simp [replace, replaceGo]

theorem replace2_ne (a b c : Char) (n t : Str) (h : c ≠ a) :
    replace [a, b] n (c :: t) = c :: replace [a, b] n t := by
  have : (a == c) = false := by simpa using fun h' => h h'.symm
  simp [replace, replaceGo, List.isPrefixOf, this]

theorem replace2_miss (a b : Char) (n t : Str) (h : t.head? ≠ some b) :
    replace [a, b] n (a :: t) = a :: replace [a, b] n t := by
  cases t with
  | nil => simp [replace, replaceGo, List.isPrefixOf]
  | cons d ds =>
    have : (b == d) = false := by
      simp only [List.head?_cons, ne_eq, Option.some.injEq] at h
      simpa using fun h' => h h'.symm
    simp [replace, replaceGo, List.isPrefixOf, this]

/-! ### strip -/

theorem lstripP_of_head (p : Char → Bool) (s : Str)
    (h : ∀ c, s.head? = some c → p c = false) : lstripP p s = s := by
  cases s with
  | nil => rfl
  | cons c cs => simp [lstripP, List.dropWhile, h c rfl]

theorem rstripP_of_last (p : Char → Bool) (s : Str)
    (h : ∀ c, s.getLast? = some c → p c = false) : rstripP p s = s := by
  have : lstripP p s.reverse = s.reverse := lstripP_of_head p _ (by simpa using h)
  simp only [lstripP] at this
  simp [rstripP, this]

theorem stripP_id (p : Char → Bool) (s : Str)
    (h1 : ∀ c, s.head? = some c → p c = false)
    (h2 : ∀ c, s.getLast? = some c → p c = false) : stripP p s = s := by
  unfold stripP; rw [lstripP_of_head p s h1, rstripP_of_last p s h2]

theorem lstripP_cons (p : Char → Bool) (c : Char) (s : Str) (h : p c = true) :
    lstripP p (c :: s) = lstripP p s := by simp [lstripP, h]

theorem rstripP_append (p : Char → Bool) (c : Char) (s : Str) (h : p c = true) :
    rstripP p (s ++ [c]) = rstripP p s := by simp [rstripP, h]

theorem lstripP_mem (p : Char → Bool) (s : Str) : ∀ c ∈ lstripP p s, c ∈ s := by
  intro c h; exact (List.dropWhile_sublist p).subset h

theorem rstripP_mem (p : Char → Bool) (s : Str) : ∀ c ∈ rstripP p s, c ∈ s := by
  intro c h
  have := (List.dropWhile_sublist p (l := s.reverse)).subset (List.mem_reverse.mp h)
  simpa using this

theorem stripP_mem (p : Char → Bool) (s : Str) : ∀ c ∈ stripP p s, c ∈ s :=
  fun c h => lstripP_mem p s c (rstripP_mem p _ c h)

theorem lstripP_head (p : Char → Bool) (s : Str) :
    ∀ c, (lstripP p s).head? = some c → p c = false := by
  induction s with
  | nil => simp [lstripP]
  | cons x xs ih =>
    intro c
    by_cases h : p x = true
    · rw [lstripP_cons p x xs h]; exact ih c
    · simp only [lstripP, List.dropWhile, h]
      intro hc; simp at hc; subst hc; simpa using h

theorem rstripP_last (p : Char → Bool) (s : Str) :
    ∀ c, (rstripP p s).getLast? = some c → p c = false := by
  intro c h
  have := lstripP_head p s.reverse c
  simp only [rstripP, List.getLast?_reverse] at h
  exact this h

theorem rstripP_prefix (p : Char → Bool) (s : Str) : rstripP p s <+: s := by
  have := List.dropWhile_suffix p (l := s.reverse)
  simpa [rstripP] using List.reverse_prefix.mpr this

theorem stripP_head (p : Char → Bool) (s : Str) :
    ∀ c, (stripP p s).head? = some c → p c = false := by
  intro c h
  have hp := rstripP_prefix p (lstripP p s)
  apply lstripP_head p s
  unfold stripP at h
  obtain ⟨t, ht⟩ := hp
  rw [← ht]
  cases hh : rstripP p (lstripP p s) with
  | nil => rw [hh] at h; simp at h
  | cons x xs => rw [hh] at h; simpa using h

theorem stripP_last (p : Char → Bool) (s : Str) :
    ∀ c, (stripP p s).getLast? = some c → p c = false := rstripP_last p _

theorem stripP_idem (p : Char → Bool) (s : Str) : stripP p (stripP p s) = stripP p s :=
  stripP_id p _ (stripP_head p s) (stripP_last p s)

/-! ### split -/

theorem split1_none (c : Char) (s : Str) (h : c ∉ s) : split1 c s = (s, none) := by
  induction s with
  | nil => rfl
  | cons x xs ih =>
    simp only [List.mem_cons, not_or] at h
    have : x ≠ c := fun e => h.1 e.symm
    simp [split1, this, ih h.2]

theorem split1_some (c : Char) (a b : Str) (h : c ∉ a) :
    split1 c (a ++ c :: b) = (a, some b) := by
  induction a with
  | nil => simp [split1]
  | cons x xs ih =>
    simp only [List.mem_cons, not_or] at h
    have : x ≠ c := fun e => h.1 e.symm
    simp [split1, this, ih h.2]

theorem splitOn_ne_nil (c : Char) (s : Str) : splitOn c s ≠ [] := by
  cases s with
  | nil => simp [splitOn]
  | cons x xs =>
    simp only [splitOn]
    split
    · simp
    · split <;> simp

theorem splitOn_single (c : Char) (s : Str) (h : c ∉ s) : splitOn c s = [s] := by
  induction s with
  | nil => rfl
  | cons x xs ih =>
    simp only [List.mem_cons, not_or] at h
    have : x ≠ c := fun e => h.1 e.symm
    simp [splitOn, this, ih h.2]

theorem splitOn_append (c : Char) (a b : Str) (h : c ∉ a) :
    splitOn c (a ++ c :: b) = a :: splitOn c b := by
  induction a with
  | nil => simp [splitOn]
  | cons x xs ih =>
    simp only [List.mem_cons, not_or] at h
    have : x ≠ c := fun e => h.1 e.symm
    simp [splitOn, this, ih h.2]

theorem splitOn_no_sep (c : Char) (s : Str) : ∀ p ∈ splitOn c s, c ∉ p := by
  induction s with
  | nil => simp [splitOn]
  | cons x xs ih =>
    simp only [splitOn]
    split
    · rename_i hx; intro p hp
      simp only [List.mem_cons] at hp
      rcases hp with rfl | hp
      · simp
      · exact ih p hp
    · rename_i hx
      split
      · rename_i he; exact absurd he (splitOn_ne_nil c xs)
      · rename_i y ys he
        intro p hp
        simp only [List.mem_cons] at hp
        rcases hp with rfl | hp
        · have := ih y (by rw [he]; simp)
          simp only [List.mem_cons, not_or]; exact ⟨fun e => hx e.symm, this⟩
        · exact ih p (by rw [he]; simp [hp])

theorem join_splitOn (c : Char) (s : Str) : join [c] (splitOn c s) = s := by
  induction s with
  | nil => rfl
  | cons x xs ih =>
    simp only [splitOn]
    split
    · rename_i hx; subst hx
      cases hs : splitOn x xs with
      | nil => exact absurd hs (splitOn_ne_nil x xs)
      | cons y ys => simp only [join, List.nil_append, ← hs, ih]; rfl
    · split
      · rename_i he; exact absurd he (splitOn_ne_nil c xs)
      · rename_i y ys he
        rw [he] at ih
        cases ys with
        | nil => simp only [join] at ih ⊢; rw [ih]
        | cons z zs => simp only [join] at ih ⊢; rw [← ih]; rfl

theorem splitOn_join (c : Char) (ps : List Str) (hne : ps ≠ []) (h : ∀ p ∈ ps, c ∉ p) :
    splitOn c (join [c] ps) = ps := by
  induction ps with
  | nil => exact absurd rfl hne
  | cons p ps ih =>
    cases ps with
    | nil => exact splitOn_single c p (h p (by simp))
    | cons q qs =>
      have := splitOn_append c p (join [c] (q :: qs)) (h p (by simp))
      simp only [join, List.append_assoc, List.singleton_append]
      rw [this, ih (by simp) (fun x hx => h x (by simp [hx]))]

/-! ### integers -/

theorem digit_char (d : Nat) (h : d < 10) :
    (Char.ofNat (48 + d)).toNat = 48 + d := by
  have : d = 0 ∨ d = 1 ∨ d = 2 ∨ d = 3 ∨ d = 4 ∨ d = 5 ∨ d = 6 ∨ d = 7 ∨ d = 8 ∨ d = 9 := by
    omega
  rcases this with h | h | h | h | h | h | h | h | h | h <;> subst h <;> rfl

theorem digitVal_digit (d : Nat) (h : d < 10) :
    digitVal (Char.ofNat (48 + d)) = some d := by
  simp only [digitVal, digit_char d h]
  rw [if_pos (by omega)]; simp

/-- A character is an ASCII decimal digit. -/
def IsDig (c : Char) : Prop := 48 ≤ c.toNat ∧ c.toNat ≤ 57

theorem digit_isDig (d : Nat) (h : d < 10) : IsDig (Char.ofNat (48 + d)) := by
  simp only [IsDig, digit_char d h]; omega

theorem natStr_digits (n : Nat) : ∀ c ∈ natStr n, IsDig c := by
  induction n using natStr.induct with
  | case1 n h => rw [natStr, if_pos h]; intro c hc; simp at hc; subst hc; exact digit_isDig n h
  | case2 n h ih =>
    rw [natStr, if_neg h]; intro c hc
    simp only [List.mem_append, List.mem_singleton] at hc
    rcases hc with hc | rfl
    · exact ih c hc
    · exact digit_isDig _ (Nat.mod_lt _ (by omega))

theorem natStr_ne_nil (n : Nat) : natStr n ≠ [] := by
  rw [natStr]; split <;> simp

theorem digitsGo_append (p : Bool) (acc : Nat) (s : Str) (c : Char) (d : Nat)
    (hs : ∀ x ∈ s, IsDig x) (hd : digitVal c = some d) :
    digitsGo p acc (s ++ [c]) =
      some ((s.foldl (fun a x => a * 10 + (x.toNat - 48)) acc) * 10 + d) := by
  induction s generalizing p acc with
  | nil => simp [digitsGo, hd]
  | cons x xs ih =>
    have hx : 48 ≤ x.toNat ∧ x.toNat ≤ 57 := hs x (by simp)
    simp only [List.cons_append, digitsGo, digitVal]
    rw [if_pos hx]
    simp only [List.foldl_cons]
    exact ih _ _ (fun y hy => hs y (by simp [hy]))

theorem natStr_val (n : Nat) :
    (natStr n).foldl (fun a x => a * 10 + (x.toNat - 48)) 0 = n := by
  induction n using natStr.induct with
  | case1 n h => rw [natStr, if_pos h]; simp [digit_char n h]
  | case2 n h ih =>
    rw [natStr, if_neg h, List.foldl_append, ih]
    simp [digit_char (n % 10) (Nat.mod_lt _ (by omega))]; omega

theorem digitsGo_digits (s : Str) (acc : Nat) (p : Bool) (hs : ∀ x ∈ s, IsDig x)
    (h : s ≠ [] ∨ p = true) :
    digitsGo p acc s = some (s.foldl (fun a x => a * 10 + (x.toNat - 48)) acc) := by
  induction s generalizing p acc with
  | nil => simp at h; simp [digitsGo, h]
  | cons x xs ih =>
    have hx : 48 ≤ x.toNat ∧ x.toNat ≤ 57 := hs x (by simp)
    simp only [digitsGo, digitVal]
    rw [if_pos hx]
    simp only [List.foldl_cons]
    exact ih _ _ (fun y hy => hs y (by simp [hy])) (by simp)

theorem digitsGo_natStr (n : Nat) : digitsGo false 0 (natStr n) = some n := by
  rw [digitsGo_digits _ _ _ (natStr_digits n) (Or.inl (natStr_ne_nil n)), natStr_val]

theorem isDig_not_space (c : Char) (h : IsDig c) : isSpace c = false := by
  obtain ⟨h1, h2⟩ := h
  simp only [isSpace]
  simp; omega

theorem strip_nospace (s : Str) (h : ∀ c ∈ s, isSpace c = false) : strip s = s :=
  stripP_id _ _ (fun c hc => h c (List.mem_of_head? hc)) (fun c hc => h c (List.mem_of_getLast? hc))

theorem strip_natStr (n : Nat) : strip (natStr n) = natStr n :=
  strip_nospace _ (fun c hc => isDig_not_space c (natStr_digits n c hc))

theorem intOf_digits (s : Str) (hs : ∀ c ∈ s, IsDig c) (hne : s ≠ []) :
    intOf s = .ok ((s.foldl (fun a x => a * 10 + (x.toNat - 48)) 0 : Nat) : Int) := by
  have hst : strip s = s := strip_nospace _ (fun c hc => isDig_not_space c (hs c hc))
  unfold intOf
  rw [hst]
  split
  · have := hs '-' (by simp); simp [IsDig] at this
  · have := hs '+' (by simp); simp [IsDig] at this
  · rw [digitsGo_digits s 0 false hs (Or.inl hne)]

theorem intOf_natStr (n : Nat) : intOf (natStr n) = .ok (n : Int) := by
  rw [intOf_digits _ (natStr_digits n) (natStr_ne_nil n), natStr_val]

theorem intOf_neg_natStr (n : Nat) : intOf ('-' :: natStr n) = .ok (-(n : Int)) := by
  have hst : strip ('-' :: natStr n) = '-' :: natStr n := by
    apply strip_nospace
    intro c hc
    simp only [List.mem_cons] at hc
    rcases hc with rfl | hc
    · decide
    · exact isDig_not_space c (natStr_digits n c hc)
  unfold intOf
  rw [hst]
  simp [digitsGo_natStr]

theorem intOf_intStr (i : Int) : intOf (intStr i) = .ok i := by
  cases i with
  | ofNat n => exact intOf_natStr n
  | negSucc n => simp only [intStr]; rw [intOf_neg_natStr]; rfl

theorem natStr_not_mem (n : Nat) (c : Char) (h : c.toNat < 48 ∨ 57 < c.toNat) :
    c ∉ natStr n := by
  intro hc; have := natStr_digits n c hc; simp only [IsDig] at this; omega

end Verif.Py
