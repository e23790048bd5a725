import Verif.RegexLang
import Verif.Props.RoutingOrder
/-!
What the regular expression of a route matches (`/repo/verktyg/routing.py`).
-/
namespace Verif.Props.RoutingP
open Verif Verif.Routing Verif.Spec.Routing

/-! ### languages -/

theorem lang_lit (w t : Str) : Re.Lang (Re.lit w) t ↔ t = w := by
  induction w generalizing t with
  | nil => rfl
  | cons c cs ih =>
    cases cs with
    | nil => simp [Re.lit, Re.Lang]
    | cons d ds =>
      simp only [Re.lit, Re.Lang]
      constructor
      · rintro ⟨u, v, rfl, ⟨x, rfl, hx⟩, hv⟩
        rw [(ih v).1 hv, eq_of_beq hx]
        rfl
      · rintro rfl
        exact ⟨[c], d :: ds, rfl, ⟨c, rfl, by simp⟩, (ih _).2 rfl⟩

theorem pure_lit (w : Str) : Re.Pure (Re.lit w) := by
  induction w with
  | nil => trivial
  | cons c cs ih =>
    cases cs with
    | nil => trivial
    | cons d ds => exact ⟨trivial, ih⟩

theorem lang_star_cls (g : Bool) (p : Char → Bool) (t : Str) :
    Re.Lang (.star g (.cls p)) t ↔ ∀ c ∈ t, p c = true := by
  simp only [Re.Lang]
  constructor
  · rintro ⟨ts, rfl, h⟩ c hc
    obtain ⟨u, hu, hc⟩ := List.mem_flatten.1 hc
    obtain ⟨_, x, rfl, hx⟩ := h u hu
    rw [List.mem_singleton.1 hc]
    exact hx
  · intro h
    refine ⟨t.map fun c => [c], ?_, ?_⟩
    · clear h
      induction t with
      | nil => rfl
      | cons c cs ih => rw [List.map_cons, List.flatten_cons, ← ih]; rfl
    · intro u hu
      obtain ⟨c, hc, rfl⟩ := List.mem_map.1 hu
      exact ⟨by simp, c, rfl, h c hc⟩

theorem lang_optN (p : Char → Bool) (k : Nat) : ∀ t, Re.Lang (optN (.cls p) k) t ↔
    (∀ c ∈ t, p c = true) ∧ t.length ≤ k := by
  induction k with
  | zero =>
    intro t
    simp only [optN, Re.Lang]
    constructor
    · rintro rfl; simp
    · rintro ⟨_, h⟩; exact List.length_eq_zero_iff.1 (by omega)
  | succ k ih =>
    intro t
    simp only [optN, Re.Lang, ih]
    constructor
    · rintro (⟨u, v, rfl, ⟨c, rfl, hc⟩, hv, hl⟩ | rfl)
      · refine ⟨?_, by simp; omega⟩
        intro x hx
        rcases List.mem_append.1 hx with hx | hx
        · rw [List.mem_singleton.1 hx]; exact hc
        · exact hv x hx
      · simp
    · rintro ⟨h1, h2⟩
      cases t with
      | nil => exact .inr rfl
      | cons c cs =>
        refine .inl ⟨[c], cs, rfl, ⟨c, rfl, h1 c (.head _)⟩, fun x hx => h1 x (.tail _ hx), ?_⟩
        simp at h2
        omega

/-- `p{m,n}`: texts of the class of a length from `m` to `n`. -/
theorem lang_rep (p : Char → Bool) (m : Nat) : ∀ (n : Option Nat), (∀ k, n = some k → m ≤ k) → ∀ t,
    (Re.Lang (rep (.cls p) m n) t ↔ (∀ c ∈ t, p c = true) ∧ m ≤ t.length ∧ ∀ k, n = some k → t.length ≤ k) := by
  induction m with
  | zero =>
    intro n _ t
    cases n with
    | none => simp only [rep]; rw [lang_star_cls]; simp
    | some k => simp only [rep]; rw [lang_optN]; simp
  | succ m ih =>
    intro n hn t
    have hn' : ∀ k, n.map (· - 1) = some k → m ≤ k := by
      intro k hk
      cases n with
      | none => cases hk
      | some j => have := hn j rfl; simp at hk; omega
    simp only [rep, Re.Lang, ih _ hn']
    constructor
    · rintro ⟨u, v, rfl, ⟨c, rfl, hc⟩, hv, hl, hk⟩
      refine ⟨?_, by simp; omega, ?_⟩
      · intro x hx
        rcases List.mem_append.1 hx with hx | hx
        · rw [List.mem_singleton.1 hx]; exact hc
        · exact hv x hx
      · intro k hnk
        have h1 := hk (k - 1) (by rw [hnk]; rfl)
        have h2 := hn k hnk
        simp
        omega
    · rintro ⟨h1, h2, h3⟩
      cases t with
      | nil => simp at h2
      | cons c cs =>
        refine ⟨[c], cs, rfl, ⟨c, rfl, h1 c (.head _)⟩, fun x hx => h1 x (.tail _ hx), by simp at h2; omega, ?_⟩
        intro k hk
        cases n with
        | none => cases hk
        | some j =>
          have := h3 j rfl
          simp at hk this
          omega

theorem pure_rep (p : Char → Bool) (m : Nat) (n : Option Nat) : Re.Pure (rep (.cls p) m n) := by
  induction m generalizing n with
  | zero =>
    cases n with
    | none => trivial
    | some k =>
      simp only [rep]
      induction k with
      | zero => trivial
      | succ k ih => exact ⟨⟨trivial, ih⟩, trivial⟩
  | succ m ih => exact ⟨trivial, ih _⟩

theorem lang_plus (p : Char → Bool) (t : Str) :
    Re.Lang (Re.plus (.cls p)) t ↔ t ≠ [] ∧ ∀ c ∈ t, p c = true := by
  have : Re.Lang (Re.plus (.cls p)) t ↔ ∃ u v, t = u ++ v ∧ (∃ c, u = [c] ∧ p c = true) ∧ ∀ c ∈ v, p c = true := by
    simp only [Re.plus]
    rw [show Re.Lang (Re.seq (.cls p) (.star true (.cls p))) t ↔ ∃ u v, t = u ++ v ∧ (∃ c, u = [c] ∧ p c = true) ∧
      Re.Lang (.star true (.cls p)) v from Iff.rfl]
    simp only [lang_star_cls]
  rw [this]
  constructor
  · rintro ⟨u, v, rfl, ⟨c, rfl, hc⟩, hv⟩
    refine ⟨by simp, fun x hx => ?_⟩
    rcases List.mem_append.1 hx with hx | hx
    · rw [List.mem_singleton.1 hx]; exact hc
    · exact hv x hx
  · rintro ⟨h1, h2⟩
    cases t with
    | nil => exact absurd rfl h1
    | cons c cs => exact ⟨[c], cs, rfl, ⟨c, rfl, h2 c (.head _)⟩, fun x hx => h2 x (.tail _ hx)⟩

theorem lang_any (items : List Str) (t : Str) : Re.Lang (anyRe items) t ↔ t ∈ items ∨ items = [] ∧ t = [] := by
  cases items with
  | nil => simp [anyRe, Re.Lang]
  | cons a as =>
    simp only [anyRe, reduceCtorEq, false_and, or_false]
    induction as generalizing a with
    | nil => simp [Re.alts, lang_lit]
    | cons b bs ih =>
      have : Re.Lang (Re.alts (List.map Re.lit (a :: b :: bs))) t ↔
          Re.Lang (Re.lit a) t ∨ Re.Lang (Re.alts (List.map Re.lit (b :: bs))) t := Iff.rfl
      rw [this, ih b, lang_lit, List.mem_cons (l := b :: bs)]

theorem pure_any (items : List Str) : Re.Pure (anyRe items) := by
  cases items with
  | nil => trivial
  | cons a as =>
    simp only [anyRe]
    induction as generalizing a with
    | nil => exact pure_lit a
    | cons b bs ih => exact ⟨pure_lit a, ih b⟩

theorem lang_path (t : Str) : Re.Lang pathConv.re t ↔ ∃ c cs, t = c :: cs ∧ c ≠ '/' ∧ '\n' ∉ cs := by
  have : Re.Lang pathConv.re t ↔ ∃ u v, t = u ++ v ∧ (∃ c, u = [c] ∧ noSlash c = true) ∧
      Re.Lang (.star false (.cls dot)) v := Iff.rfl
  rw [this]
  simp only [lang_star_cls]
  constructor
  · rintro ⟨u, v, rfl, ⟨c, rfl, hc⟩, hv⟩
    refine ⟨c, v, rfl, by simpa [noSlash] using hc, fun h => ?_⟩
    have := hv _ h
    simp [dot] at this
  · rintro ⟨c, cs, rfl, h1, h2⟩
    refine ⟨[c], cs, rfl, ⟨c, rfl, by simpa [noSlash] using h1⟩, fun x hx => ?_⟩
    simp only [dot, bne_iff_ne, ne_eq]
    rintro rfl
    exact h2 hx

/-- `p{n}`. -/
theorem lang_times (p : Char → Bool) (n : Nat) (t : Str) :
    Re.Lang (times (.cls p) n) t ↔ (∀ c ∈ t, p c = true) ∧ t.length = n := by
  rw [times, lang_rep p n (some n) (fun k hk => by cases hk; exact Nat.le_refl _)]
  constructor
  · rintro ⟨h1, h2, h3⟩
    have := h3 n rfl
    exact ⟨h1, by omega⟩
  · rintro ⟨h1, h2⟩
    exact ⟨h1, by omega, fun k hk => by cases hk; omega⟩

/-- The text of a UUID: groups of 8, 4, 4, 4 and 12 hexadecimal digits. -/
theorem lang_uuid (t : Str) : Re.Lang uuidConv.re t ↔ ∃ a b c d e : Str,
    t = a ++ s%"-" ++ b ++ s%"-" ++ c ++ s%"-" ++ d ++ s%"-" ++ e ∧
    (a.length = 8 ∧ b.length = 4 ∧ c.length = 4 ∧ d.length = 4 ∧ e.length = 12) ∧
    ∀ x ∈ a ++ b ++ c ++ d ++ e, isHex x = true := by
  have : Re.Lang uuidConv.re t ↔ ∃ a t1, t = a ++ t1 ∧ Re.Lang (times (.cls isHex) 8) a ∧
      ∃ h1 t2, t1 = h1 ++ t2 ∧ Re.Lang (Re.lit s%"-") h1 ∧
      ∃ b t3, t2 = b ++ t3 ∧ Re.Lang (times (.cls isHex) 4) b ∧
      ∃ h2 t4, t3 = h2 ++ t4 ∧ Re.Lang (Re.lit s%"-") h2 ∧
      ∃ c t5, t4 = c ++ t5 ∧ Re.Lang (times (.cls isHex) 4) c ∧
      ∃ h3 t6, t5 = h3 ++ t6 ∧ Re.Lang (Re.lit s%"-") h3 ∧
      ∃ d t7, t6 = d ++ t7 ∧ Re.Lang (times (.cls isHex) 4) d ∧
      ∃ h4 e, t7 = h4 ++ e ∧ Re.Lang (Re.lit s%"-") h4 ∧ Re.Lang (times (.cls isHex) 12) e := Iff.rfl
  rw [this]
  simp only [lang_times, lang_lit]
  constructor
  · rintro ⟨a, _, rfl, ⟨ha, la⟩, _, _, rfl, rfl, b, _, rfl, ⟨hb, lb⟩, _, _, rfl, rfl, c, _, rfl, ⟨hc, lc⟩, _, _, rfl, rfl,
      d, _, rfl, ⟨hd, ld⟩, _, e, rfl, rfl, he, le⟩
    refine ⟨a, b, c, d, e, by simp, ⟨la, lb, lc, ld, le⟩, ?_⟩
    intro x hx
    simp only [List.mem_append] at hx
    rcases hx with (((hx | hx) | hx) | hx) | hx
    · exact ha x hx
    · exact hb x hx
    · exact hc x hx
    · exact hd x hx
    · exact he x hx
  · rintro ⟨a, b, c, d, e, rfl, ⟨la, lb, lc, ld, le⟩, h⟩
    simp only [List.mem_append] at h
    refine ⟨a, _, by simp only [List.append_assoc], ⟨fun x hx => h x (by simp [hx]), la⟩, _, _, rfl, rfl,
      b, _, rfl, ⟨fun x hx => h x (by simp [hx]), lb⟩, _, _, rfl, rfl,
      c, _, rfl, ⟨fun x hx => h x (by simp [hx]), lc⟩, _, _, rfl, rfl,
      d, _, rfl, ⟨fun x hx => h x (by simp [hx]), ld⟩, _, _, rfl, rfl, fun x hx => h x (by simp [hx]), le⟩

/-! ### the pattern of a route -/

/-- Converters whose patterns have no groups, `$` or look-behind, like those of the module. -/
def PureParts (ps : List Part) : Prop := ∀ n c, (n, c) ∈ vars ps → Re.Pure c.re

/-- A rule with its variables replaced by texts. -/
def fill : List Part → List Str → Str
  | [], _ => []
  | .text s :: ps, ts => s ++ fill ps ts
  | .var _ _ :: ps, [] => fill ps []
  | .var _ _ :: ps, t :: ts => t ++ fill ps ts

/-- One text for each variable, of the form of its converter. -/
def Fit : List Part → List Str → Prop
  | [], ts => ts = []
  | .text _ :: ps, ts => Fit ps ts
  | .var _ _ :: _, [] => False
  | .var _ c :: ps, t :: ts => Re.Lang c.re t ∧ Fit ps ts

/-- The groups set by the variables, latest first. -/
def capsOf : Nat → List Str → List (Nat × Str)
  | _, [] => []
  | n, t :: ts => capsOf (n + 1) ts ++ [(n, t)]

theorem after_append {α} (prev : Option α) (a b : List α) : Re.after (Re.after prev a) b = Re.after prev (a ++ b) := by
  unfold Re.after
  cases b with
  | nil => simp
  | cons x xs => rw [List.getLast?_append]; cases h : (x :: xs).getLast? with
    | none => simp at h
    | some y => simp

theorem PureParts.tail {p : Part} {ps : List Part} (h : PureParts (p :: ps)) : PureParts ps := by
  intro n c hc
  cases p with
  | text s => exact h n c hc
  | var _ _ => exact h n c (.tail _ hc)


/-- All ways in which the pattern of a rule can match. -/
theorem mem_parts (ps : List Part) : ∀ (_ : PureParts ps) (n : Nat) (r : Re Char) (prev : Option Char) (s : Str) (m : Re.M Char),
    m ∈ Re.run (seqs (partsRe n ps) r) prev s ↔ ∃ ts s' m', Fit ps ts ∧ s = fill ps ts ++ s' ∧
      m' ∈ Re.run r (Re.after prev (fill ps ts)) s' ∧
      m = ⟨fill ps ts ++ m'.txt, m'.rest, m'.caps ++ capsOf n ts⟩ := by
  induction ps with
  | nil =>
    intro _ n r prev s m
    simp only [partsRe, seqs, Fit, fill]
    constructor
    · intro h
      refine ⟨[], s, m, rfl, rfl, ?_, ?_⟩
      · simpa [Re.after] using h
      · simp [capsOf]
    · rintro ⟨ts, s', m', rfl, rfl, h, rfl⟩
      simpa [Re.after, capsOf] using h
  | cons p ps ih =>
    intro hp n r prev s m
    have ih := ih hp.tail
    cases p with
    | text w =>
      simp only [partsRe, seqs, Re.run, List.mem_flatMap, Re.andThen, List.mem_map, Fit, fill]
      constructor
      · rintro ⟨m1, h1, m2, h2, rfl⟩
        obtain ⟨e1, e2, e3⟩ := (Re.mem_run (pure_lit w) _ _ _).1 h1
        rw [lang_lit] at e3
        obtain ⟨ts, s', m', f1, f2, f3, rfl⟩ := (ih _ _ _ _ _).1 h2
        refine ⟨ts, s', m', f1, ?_, ?_, ?_⟩
        · rw [← e1, f2, e3, List.append_assoc]
        · rw [← after_append, ← e3]; exact f3
        · simp [e2, e3]
      · rintro ⟨ts, s', m', f1, rfl, f3, rfl⟩
        refine ⟨⟨w, fill ps ts ++ s', []⟩, (Re.mem_run (pure_lit w) _ _ _).2 ⟨by simp, rfl, (lang_lit _ _).2 rfl⟩,
          _, (ih _ _ _ _ _).2 ⟨ts, s', m', f1, rfl, ?_, rfl⟩, ?_⟩
        · rw [after_append]; exact f3
        · simp
    | var name c =>
      have hc : Re.Pure c.re := hp name c (.head _)
      simp only [partsRe, seqs, Re.run, List.mem_flatMap, Re.andThen, List.mem_map]
      constructor
      · rintro ⟨m1, ⟨m0, h0, rfl⟩, m2, h2, rfl⟩
        obtain ⟨e1, e2, e3⟩ := (Re.mem_run hc _ _ _).1 h0
        obtain ⟨ts, s', m', f1, f2, f3, rfl⟩ := (ih _ _ _ _ _).1 h2
        refine ⟨m0.txt :: ts, s', m', ⟨e3, f1⟩, ?_, ?_, ?_⟩
        · rw [← e1]
          simp only [fill]
          rw [List.append_assoc, ← f2]
        · simp only [fill]; rw [← after_append]; exact f3
        · simp [e2, fill, capsOf]
      · rintro ⟨ts, s', m', f1, rfl, f3, rfl⟩
        cases ts with
        | nil => exact f1.elim
        | cons t ts =>
          obtain ⟨f0, f1⟩ := f1
          simp only [fill] at f3 ⊢
          refine ⟨⟨t, fill ps ts ++ s', [(n, t)]⟩, ⟨⟨t, fill ps ts ++ s', []⟩, (Re.mem_run hc _ _ _).2
            ⟨by simp, rfl, f0⟩, rfl⟩, _, (ih _ _ _ _ _).2 ⟨ts, s', m', f1, rfl, ?_, rfl⟩, ?_⟩
          · rw [after_append]; exact f3
          · simp [capsOf]

/-- The domain and the path of a rule. -/
def parts (b : Bound) : List Part := b.domain ++ .text s%"|" :: b.path

theorem partsRe_append (a b : List Part) : ∀ n, partsRe n (a ++ b) = partsRe n a ++ partsRe (n + (vars a).length) b := by
  induction a with
  | nil => intro n; rfl
  | cons p ps ih =>
    intro n
    cases p with
    | text s => simp only [List.cons_append, partsRe, ih, vars]
    | var m c =>
      simp only [List.cons_append, partsRe, ih, vars, List.length_cons]
      rw [show n + 1 + (vars ps).length = n + ((vars ps).length + 1) by omega]

theorem re_eq (b : Bound) : b.re = seqs (partsRe 0 (parts b)) (tailRe b) := by
  unfold Bound.re parts
  rw [partsRe_append, Nat.zero_add]
  rfl

theorem vars_parts (b : Bound) : vars (parts b) = b.vars := by
  unfold parts Bound.vars
  rw [mem_vars_append]
  rfl

theorem fit_length (ps : List Part) : ∀ ts, Fit ps ts → ts.length = (vars ps).length := by
  induction ps with
  | nil => intro ts h; rw [show ts = [] from h]; rfl
  | cons p ps ih =>
    intro ts h
    cases p with
    | text s => exact ih ts h
    | var n c =>
      cases ts with
      | nil => exact h.elim
      | cons t ts => simp [vars, ih ts h.2]

/-- The end of the pattern: an optional slash which does not follow another one, and the end
of the text, or a line break before it. -/
theorem mem_tail (b : Bound) (prev : Option Char) (s : Str) (m : Re.M Char) :
    m ∈ Re.run (tailRe b) prev s ↔ ∃ suffix nl : Str, s = suffix ++ nl ∧ (nl = [] ∨ nl = s%"\n") ∧
      (if b.suffixed then prev ≠ some '/' ∧ (suffix = [] ∨ suffix = s%"/") ∧ m = ⟨suffix, nl, [(b.vars.length, suffix)]⟩
      else suffix = [] ∧ m = ⟨[], nl, []⟩) := by
  have heos : ∀ prev s (m : Re.M Char), m ∈ Re.run atEnd prev s ↔ (s = [] ∨ s = s%"\n") ∧ m = ⟨[], s, []⟩ := by
    intro prev s m
    cases s with
    | nil => simp [atEnd, Re.run]
    | cons c cs =>
      simp only [atEnd, Re.run]
      by_cases h : (c == '\n' && cs.isEmpty) = true
      · rw [if_pos h]
        simp only [Bool.and_eq_true, beq_iff_eq, List.isEmpty_iff] at h
        obtain ⟨rfl, rfl⟩ := h
        simp
      · rw [if_neg h]
        simp only [Bool.and_eq_true, beq_iff_eq, List.isEmpty_iff] at h
        constructor
        · intro h; cases h
        · rintro ⟨h' | h', _⟩
          · cases h'
          · exact absurd ⟨by injection h', by injection h'⟩ h
  unfold tailRe
  split
  · rename_i hb
    have hna : ∀ (m : Re.M Char), m ∈ Re.run (.notAfter (· == '/')) prev s ↔ prev ≠ some '/' ∧ m = ⟨[], s, []⟩ := by
      intro m
      cases prev with
      | none => simp [Re.run]
      | some c =>
        by_cases hc : c = '/'
        · subst hc; simp [Re.run]
        · simp [Re.run, hc]
    have hopt : ∀ prev s (m : Re.M Char), m ∈ Re.run (.grp b.vars.length (Re.opt (Re.lit s%"/"))) prev s ↔
        ∃ suf r, s = suf ++ r ∧ (suf = [] ∨ suf = s%"/") ∧ m = ⟨suf, r, [(b.vars.length, suf)]⟩ := by
      intro prev s m
      simp only [Re.run, List.mem_map]
      constructor
      · rintro ⟨m0, h0, rfl⟩
        obtain ⟨e1, e2, e3⟩ := (Re.mem_run (r := Re.opt (Re.lit s%"/")) ⟨pure_lit _, trivial⟩ _ _ _).1 h0
        refine ⟨m0.txt, m0.rest, e1.symm, ?_, by rw [e2]⟩
        rcases e3 with e3 | e3
        · exact .inr ((lang_lit _ _).1 e3)
        · exact .inl e3
      · rintro ⟨suf, r, rfl, h, rfl⟩
        refine ⟨⟨suf, r, []⟩, (Re.mem_run (r := Re.opt (Re.lit s%"/")) ⟨pure_lit _, trivial⟩ _ _ _).2 ⟨rfl, rfl, ?_⟩, rfl⟩
        rcases h with h | h
        · exact .inr h
        · exact .inl ((lang_lit _ _).2 h)
    rw [show Re.run (.seq (.notAfter (· == '/')) (.seq (.grp b.vars.length (Re.opt (Re.lit s%"/"))) atEnd)) prev s =
      (Re.run (.notAfter (· == '/')) prev s).flatMap (Re.andThen (Re.run
        (.seq (.grp b.vars.length (Re.opt (Re.lit s%"/"))) atEnd)) prev) from rfl]
    simp only [List.mem_flatMap, Re.andThen, List.mem_map]
    constructor
    · rintro ⟨m1, h1, m2, h2, rfl⟩
      obtain ⟨hp, rfl⟩ := (hna _).1 h1
      rw [show ∀ p s, Re.run (.seq (.grp b.vars.length (Re.opt (Re.lit s%"/"))) atEnd) p s =
        (Re.run (.grp b.vars.length (Re.opt (Re.lit s%"/"))) p s).flatMap (Re.andThen (Re.run atEnd) p)
        from fun _ _ => rfl] at h2
      simp only [List.mem_flatMap, Re.andThen, List.mem_map] at h2
      obtain ⟨m3, h3, m4, h4, rfl⟩ := h2
      obtain ⟨suf, r, e1, e2, rfl⟩ := (hopt _ _ _).1 h3
      obtain ⟨e3, rfl⟩ := (heos _ _ _).1 h4
      exact ⟨suf, r, e1, e3, hp, e2, by simp⟩
    · rintro ⟨suf, nl, rfl, h1, h2, h3, rfl⟩
      refine ⟨_, (hna _).2 ⟨h2, rfl⟩, ⟨suf, nl, [(b.vars.length, suf)]⟩, ?_, by simp⟩
      rw [show ∀ p s, Re.run (.seq (.grp b.vars.length (Re.opt (Re.lit s%"/"))) atEnd) p s =
        (Re.run (.grp b.vars.length (Re.opt (Re.lit s%"/"))) p s).flatMap (Re.andThen (Re.run atEnd) p)
        from fun _ _ => rfl]
      simp only [List.mem_flatMap, Re.andThen, List.mem_map]
      exact ⟨_, (hopt _ _ _).2 ⟨suf, nl, rfl, h3, rfl⟩, _, (heos _ _ _).2 ⟨h1, rfl⟩, by simp⟩
  · rename_i hb
    rw [heos]
    constructor
    · rintro ⟨h, rfl⟩
      exact ⟨[], s, rfl, h, rfl, rfl⟩
    · rintro ⟨suf, nl, rfl, h, rfl, rfl⟩
      exact ⟨h, rfl⟩

/-- The path is the rule with its variables replaced by the texts `ts`, up to an optional slash
and a line break at the end. -/
structure Reads (b : Bound) (path : Str) (ts : List Str) (suffix nl : Str) : Prop where
  fit : Fit (parts b) ts
  path : path = fill (parts b) ts ++ suffix ++ nl
  nl : nl = [] ∨ nl = s%"\n"
  suffix : if b.suffixed then (fill (parts b) ts).getLast? ≠ some '/' ∧ (suffix = [] ∨ suffix = s%"/") else suffix = []

/-- The match of a reading. -/
def reading (b : Bound) (ts : List Str) (suffix nl : Str) : Re.M Char :=
  ⟨fill (parts b) ts ++ suffix, nl, (if b.suffixed then [(b.vars.length, suffix)] else []) ++ capsOf 0 ts⟩

/-- The matches of the pattern of a route. -/
theorem mem_re (b : Bound) (hp : PureParts (parts b)) (path : Str) (m : Re.M Char) :
    m ∈ Re.run b.re none path ↔ ∃ ts suffix nl, Reads b path ts suffix nl ∧ m = reading b ts suffix nl := by
  have hafter : ∀ s : Str, (Re.after none s ≠ some '/') ↔ s.getLast? ≠ some '/' := by
    intro s
    unfold Re.after
    cases s.getLast? <;> simp
  rw [re_eq, mem_parts _ hp]
  constructor
  · rintro ⟨ts, s', m', h1, rfl, h3, rfl⟩
    obtain ⟨suf, nl, rfl, e2, e3⟩ := (mem_tail _ _ _ _).1 h3
    by_cases hs : b.suffixed = true
    · rw [if_pos hs] at e3
      obtain ⟨e4, e5, rfl⟩ := e3
      exact ⟨ts, suf, nl, ⟨h1, by simp, e2, by rw [if_pos hs]; exact ⟨(hafter _).1 e4, e5⟩⟩, by simp [reading, hs]⟩
    · rw [if_neg hs] at e3
      obtain ⟨rfl, rfl⟩ := e3
      exact ⟨ts, [], nl, ⟨h1, by simp, e2, by rw [if_neg hs]⟩, by simp [reading, hs]⟩
  · rintro ⟨ts, suf, nl, ⟨h1, rfl, h3, h4⟩, rfl⟩
    by_cases hs : b.suffixed = true
    · rw [if_pos hs] at h4
      refine ⟨ts, suf ++ nl, ⟨suf, nl, [(b.vars.length, suf)]⟩, h1, by simp, (mem_tail _ _ _ _).2
        ⟨suf, nl, rfl, h3, ?_⟩, by simp [reading, hs]⟩
      rw [if_pos hs]
      exact ⟨(hafter _).2 h4.1, h4.2, rfl⟩
    · rw [if_neg hs] at h4
      subst h4
      refine ⟨ts, nl, ⟨[], nl, []⟩, h1, by simp, (mem_tail _ _ _ _).2 ⟨[], nl, rfl, h3, ?_⟩, by simp [reading, hs]⟩
      rw [if_neg hs]
      exact ⟨rfl, rfl⟩

/-! ### the groups of a match -/

theorem lookup_caps (ts : List Str) : ∀ n i, (capsOf n ts).lookup i = if n ≤ i then ts[i - n]? else none := by
  induction ts with
  | nil => intro n i; simp [capsOf]
  | cons t ts ih =>
    intro n i
    rw [capsOf, List.lookup_append, ih]
    by_cases h : n = i
    · subst h
      rw [if_neg (by omega)]
      simp
    · by_cases h' : n ≤ i
      · rw [if_pos (by omega), if_pos h', show i - n = (i - (n + 1)) + 1 by omega, List.getElem?_cons_succ]
        have : (i == n) = false := by simp; omega
        simp [List.lookup, this]
      · rw [if_neg (by omega), if_neg h']
        have : (i == n) = false := by simp; omega
        simp [List.lookup, this]

/-- The arguments of the texts, `none` if one is rejected. -/
def argsOf : List (Str × Converter) → List Str → Option Values
  | (n, c) :: vs, t :: ts =>
    match c.toPython t with
    | none => none
    | some v => (argsOf vs ts).map ((n, v) :: ·)
  | _, _ => some []

theorem convert_eq (m : Re.M Char) (vs : List (Str × Converter)) : ∀ (ts : List Str) (n : Nat), ts.length = vs.length →
    (∀ i, i < ts.length → m.group (n + i) = ts[i]?) → convert m n vs = argsOf vs ts := by
  induction vs with
  | nil => intro ts n _ _; cases ts <;> rfl
  | cons v vs ih =>
    intro ts n hl h
    obtain ⟨name, c⟩ := v
    cases ts with
    | nil => cases hl
    | cons t ts =>
      have h0 : m.group n = some t := h 0 (by simp)
      simp only [convert, argsOf, h0, Option.getD_some]
      rw [ih ts (n + 1) (by simpa using hl) fun i hi => by
        have := h (i + 1) (by simp; omega)
        rw [show n + 1 + i = n + (i + 1) by omega, this, List.getElem?_cons_succ]]
      rfl

theorem group_reading (b : Bound) (ts : List Str) (suf nl : Str) (hl : ts.length = b.vars.length) :
    (∀ i, i < ts.length → (reading b ts suf nl).group (0 + i) = ts[i]?) ∧
    (b.suffixed = true → (reading b ts suf nl).group b.vars.length = some suf) := by
  constructor
  · intro i hi
    unfold Re.M.group reading
    rw [List.lookup_append, lookup_caps]
    have : (i == b.vars.length) = false := by simp; omega
    split <;> simp [List.lookup, this]
  · intro hs
    simp [Re.M.group, reading, hs]

/-- What a route makes of the reading found first. -/
def outcome (cfg : Config) (b : Bound) (ts : List Str) (suffix : Str) : Found :=
  if b.strict ∧ !b.route.leaf ∧ suffix = [] then .slash
  else
    match argsOf b.vars ts with
    | none => .none
    | some vs =>
      if b.route.alias ∧ cfg.redirectDefaults then .alias (update vs b.route.defaults)
      else .values (update vs b.route.defaults)

theorem match_reading (cfg : Config) (b : Bound) (hb : b.route.buildOnly = false) (path : Str) (ts : List Str)
    (suf nl : Str) (hl : ts.length = b.vars.length) (hf : Re.first b.re none path = some (reading b ts suf nl)) :
    b.match_ cfg path = outcome cfg b ts suf := by
  obtain ⟨g1, g2⟩ := group_reading b ts suf nl hl
  simp only [Bound.match_, hb, hf, outcome, Bool.false_eq_true, if_false]
  rw [convert_eq _ _ ts 0 hl g1]
  by_cases hc : b.strict = true ∧ (!b.route.leaf) = true
  · have hs : b.suffixed = true := by simp [Bound.suffixed, hc.2]
    rw [g2 hs, Option.getD_some]
    rfl
  · rw [if_neg (fun h => hc ⟨h.1, h.2.1⟩), if_neg (fun h => hc ⟨h.1, h.2.1⟩)]
    rfl

/-- A route matches by the reading found first. -/
theorem match_cases (cfg : Config) (b : Bound) (hp : PureParts (parts b)) (hb : b.route.buildOnly = false) (path : Str) :
    ((∀ ts suf nl, ¬ Reads b path ts suf nl) ∧ Re.first b.re none path = none ∧ b.match_ cfg path = .none) ∨
    (∃ ts suf nl, Reads b path ts suf nl ∧ Re.first b.re none path = some (reading b ts suf nl) ∧
      b.match_ cfg path = outcome cfg b ts suf) := by
  cases hf : Re.first b.re none path with
  | none =>
    left
    refine ⟨?_, rfl, ?_⟩
    · intro ts suf nl h
      have := (mem_re b hp path _).2 ⟨ts, suf, nl, h, rfl⟩
      unfold Re.first at hf
      rw [List.head?_eq_none_iff.1 hf] at this
      cases this
    · simp [Bound.match_, hb, hf]
  | some m =>
    right
    obtain ⟨ts, suf, nl, h, rfl⟩ := (mem_re b hp path _).1 (List.mem_of_mem_head? (Option.mem_def.2 hf))
    have hl : ts.length = b.vars.length := by rw [fit_length _ _ h.fit, vars_parts]
    exact ⟨ts, suf, nl, h, rfl, match_reading cfg b hb path ts suf nl hl hf⟩

end Verif.Props.RoutingP
