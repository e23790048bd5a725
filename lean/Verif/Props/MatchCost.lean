import Verif.Model.MatchCost
import Verif.Props.Etag
/-!
C147: how the attempts of the pattern matcher grow with headers and paths.
-/
namespace Verif.Props.MatchCostP
open Verif Verif.Re Verif.MatchCost

/-! ### options -/

theorem quoted_le (k : Rest Char) (B : Nat) (prev : Option Char) (s : Str)
    (hk : ∀ prev' s', s'.length ≤ s.length → (k prev' s').1 ≤ B) : (search Options.quotedRe k prev s).1 ≤ 5 * s.length + B + 6 := by
  unfold Options.quotedRe
  cases s with
  | nil => simp [search]
  | cons c cs =>
    simp only [search]
    split
    · simp only [tick]
      have h := star_cls_le true Options.plainCh (search (seq (star true (seq (cls (· == '\\')) (seq (cls (· != '\n'))
          (star true (cls Options.plainCh))))) (cls (· == '"'))) k) 3 5 (B + 3) (by omega) cs.length (some c) cs ?_ ?_
      · simp only [search] at h
        simp only [List.length_cons]
        refine Nat.le_trans (Nat.add_le_add_right h 1) ?_
        omega
      · intro p' x xs hx hl
        have hx1 : (x == '\\') = false := by
          simp [Options.plainCh] at hx; simpa using hx.2
        have hx2 : (x == '"') = false := by
          simp [Options.plainCh] at hx; simpa using hx.1
        rw [search, search]
        refine Nat.le_trans (star_head_le true (· == '\\') _ _ _ p' x xs hx1) ?_
        simp only [search, hx2]
        simp
      · intro p' s' ho hl
        rw [search, search]
        refine Nat.le_trans (star_sep_le true (· == '\\') (· != '\n') Options.plainCh ?_ (search (cls (· == '"')) k) 1 (B + 1)
          s'.length p' s' ?_ ?_) (by omega)
        · intro y hy; simp at hy; subst hy; decide
        · intro p'' y ys hy hl'
          have hx2 : (y == '"') = false := by
            simp [Options.plainCh] at hy
            rcases hy with hy | hy
            · simpa using hy.1
            · subst hy; decide
          simp [search, hx2]
        · intro p'' s'' _ hl'
          cases s'' with
          | nil => simp [search]
          | cons y ys =>
            simp only [search]
            split
            · have := hk (some y) ys (by simp at hl' ⊢; omega)
              simp [tick]; exact this
            · simp
    · simp

theorem plus_succ (p : Char → Bool) (k : Rest Char) (B : Nat) (hs : ∀ prev' s', (k prev' s').2 = true) (prev : Option Char) (s : Str)
    (hk : ∀ prev' s', s'.length ≤ s.length → (k prev' s').1 ≤ B) : (search (plus (cls p)) k prev s).1 ≤ 2 * s.length + B + 3 ∧
    (∀ c cs, s = c :: cs → p c = true → (search (plus (cls p)) k prev s).2 = true) := by
  unfold plus
  cases s with
  | nil => simp [search]
  | cons c cs =>
    simp only [search]
    by_cases hp : p c = true
    · have h := star_succ p k B hs cs.length (some c) cs (fun p' s' hl => hk p' s' (by simp; omega))
      simp only [hp, if_true, tick, List.length_cons]
      exact ⟨by omega, fun _ _ _ _ => h.2⟩
    · simp only [hp, Bool.false_eq_true, if_false]
      refine ⟨by omega, fun c' cs' e hp' => ?_⟩
      cases e
      exact absurd hp' hp

/-- The end of a piece. -/
theorem spaces_done (prev : Option Char) (s : Str) : (search (star true (cls Py.isSpace)) done prev s).1 ≤ 2 * s.length + 2 ∧
    (search (star true (cls Py.isSpace)) done prev s).2 = true := by
  have := star_succ Py.isSpace (done : Rest Char) 0 (fun _ _ => rfl) s.length prev s (fun _ _ _ => Nat.le_refl _)
  simpa [search] using this

/-- A value, where what remains is always matched. -/
theorem value_le (n : Nat) (p : Char → Bool) (k : Rest Char) (B : Nat) (hs : ∀ prev' s', (k prev' s').2 = true) (prev : Option Char) (s : Str)
    (hk : ∀ prev' s', s'.length ≤ s.length → (k prev' s').1 ≤ B) :
    (search (grp n (alt Options.quotedRe (plus (cls p)))) k prev s).1 ≤ 7 * s.length + 2 * B + 11 := by
  have h1 := quoted_le k B prev s hk
  have h2 := (plus_succ p k B hs prev s hk).1
  have h3 := orTry_le (search Options.quotedRe k prev s) (search (plus (cls p)) k prev s)
  simp only [search, tick] at h1 h2 h3 ⊢
  omega

theorem piece_le (prev : Option Char) (s : Str) : attempts Options.pieceRe prev s ≤ 92 * (s.length + 1) := by
  have hV : ∀ prev' s', s'.length ≤ s.length →
      (search (grp 2 (alt Options.quotedRe (plus (cls (· != ';'))))) (search (star true (cls Py.isSpace)) done) prev' s').1 ≤
        11 * s.length + 15 := by
    intro p' s' hl
    have := value_le 2 (· != ';') (search (star true (cls Py.isSpace)) done) (2 * s.length + 2) (fun p s => (spaces_done p s).2) p' s'
      (fun p'' s'' hl' => Nat.le_trans (spaces_done p'' s'').1 (by omega))
    omega
  have hVs : ∀ prev' c cs, Py.isSpace c = true →
      (search (grp 2 (alt Options.quotedRe (plus (cls (· != ';'))))) (search (star true (cls Py.isSpace)) done) prev' (c :: cs)).2 = true := by
    intro p' c cs hc
    have hc' : (c != ';') = true := by
      by_cases h : c = ';'
      · subst h; revert hc; decide
      · simpa using h
    have := (plus_succ (· != ';') (search (star true (cls Py.isSpace)) done) (2 * (c :: cs).length + 2) (fun p s => (spaces_done p s).2) p'
      (c :: cs) (fun p'' s'' hl' => Nat.le_trans (spaces_done p'' s'').1 (by omega))).2 c cs rfl hc'
    simp only [search, tick, orTry_snd] at this ⊢
    rw [this]
    simp
  have hO : ∀ prev' s', s'.length ≤ s.length →
      (search (opt (seq (cls (· == '=')) (seq (star true (cls Py.isSpace)) (grp 2 (alt Options.quotedRe (plus (cls (· != ';'))))))))
        (search (star true (cls Py.isSpace)) done) prev' s').1 ≤ 26 * s.length + 37 := by
    intro p' s' hl
    unfold opt
    rw [search]
    have h3 := orTry_le (search (seq (cls (· == '=')) (seq (star true (cls Py.isSpace)) (grp 2 (alt Options.quotedRe (plus (cls (· != ';')))))))
        (search (star true (cls Py.isSpace)) done) p' s') (search eps (search (star true (cls Py.isSpace)) done) p' s')
    have h1 : (search (seq (cls (· == '=')) (seq (star true (cls Py.isSpace)) (grp 2 (alt Options.quotedRe (plus (cls (· != ';')))))))
        (search (star true (cls Py.isSpace)) done) p' s').1 ≤ 24 * s.length + 33 := by
      cases s' with
      | nil => simp only [search]; omega
      | cons c cs =>
        rw [search, search]
        split
        · have := star_fail_le Py.isSpace (search (grp 2 (alt Options.quotedRe (plus (cls (· != ';')))))
            (search (star true (cls Py.isSpace)) done)) 0 (11 * s.length + 15) cs.length (some c) cs
            (fun p'' x xs hx _ hf => by rw [hVs p'' x xs hx] at hf; cases hf)
            (fun p'' s'' hl' => hV p'' s'' (by simp at hl; omega))
          have e : ∀ b : Bool, (if b = true then 11 * s.length + 15 else 0) ≤ 11 * s.length + 15 := by intro b; split <;> omega
          have e' := e (starSearch true (search (cls Py.isSpace)) (search (grp 2 (alt Options.quotedRe (plus (cls (· != ';')))))
            (search (star true (cls Py.isSpace)) done)) cs.length (some c) cs).2
          rw [search, search]
          simp only [tick]
          simp only [List.length_cons] at hl
          omega
        · simp
    have h2 := (spaces_done p' s').1
    have h2' : (search eps (search (star true (cls Py.isSpace)) done) p' s').1 =
      (search (star true (cls Py.isSpace)) done p' s').1 + 1 := rfl
    show (orTry _ _).1 + 1 ≤ _
    omega
  have hOs : ∀ prev' s',
      (search (opt (seq (cls (· == '=')) (seq (star true (cls Py.isSpace)) (grp 2 (alt Options.quotedRe (plus (cls (· != ';'))))))))
        (search (star true (cls Py.isSpace)) done) prev' s').2 = true := by
    intro p' s'
    unfold opt
    rw [search]
    show (orTry _ _).2 = true
    rw [orTry_snd]
    have : (search eps (search (star true (cls Py.isSpace)) done) p' s').2 = true := (spaces_done p' s').2
    rw [this]
    simp
  have hT : ∀ prev' s', s'.length ≤ s.length →
      (search (seq (star true (cls Py.isSpace)) (seq (opt (seq (cls (· == '=')) (seq (star true (cls Py.isSpace))
        (grp 2 (alt Options.quotedRe (plus (cls (· != ';')))))))) (star true (cls Py.isSpace)))) done prev' s').1 ≤ 28 * s.length + 39 := by
    intro p' s' hl
    have := (star_succ Py.isSpace _ (26 * s.length + 37) hOs s'.length p' s' (fun p'' s'' hl' => hO p'' s'' (by omega))).1
    rw [search, search]
    exact Nat.le_trans this (by omega)
  have hTs : ∀ prev' s',
      (search (seq (star true (cls Py.isSpace)) (seq (opt (seq (cls (· == '=')) (seq (star true (cls Py.isSpace))
        (grp 2 (alt Options.quotedRe (plus (cls (· != ';')))))))) (star true (cls Py.isSpace)))) done prev' s').2 = true := by
    intro p' s'
    rw [search]
    rw [search_run]
    rw [List.any_eq_true]
    have := search_run (star true (cls Py.isSpace)) (done : Rest Char) p' s'
    rw [(spaces_done p' s').2, eq_comm, List.any_eq_true] at this
    obtain ⟨m, hm, _⟩ := this
    exact ⟨m, hm, hOs _ _⟩
  have hG : ∀ prev' s', s'.length ≤ s.length →
      (search (seq (grp 1 (alt Options.quotedRe (plus (cls Options.keyCh)))) (seq (star true (cls Py.isSpace)) (seq (opt (seq (cls (· == '='))
        (seq (star true (cls Py.isSpace)) (grp 2 (alt Options.quotedRe (plus (cls (· != ';')))))))) (star true (cls Py.isSpace)))))
        done prev' s').1 ≤ 63 * s.length + 89 := by
    intro p' s' hl
    rw [search]
    have := value_le 1 Options.keyCh _ (28 * s.length + 39) hTs p' s' (fun p'' s'' hl' => hT p'' s'' (by omega))
    omega
  unfold attempts Options.pieceRe
  cases s with
  | nil => simp [search]
  | cons c cs =>
    rw [search, search]
    split
    · have := star_cls_le true Py.isSpace _ 4 6 (63 * (c :: cs).length + 89) (by omega) cs.length (some c) cs
        (fun p' x xs hx hl => ?_) (fun p' s' _ hl => Nat.le_trans (hG p' s' (by simp; omega)) (by omega))
      · rw [search, search]
        simp only [tick]
        refine Nat.le_trans (Nat.add_le_add_right this 1) ?_
        simp only [List.length_cons]
        omega
      · have hq : (x == '"') = false := by
          by_cases h : x = '"'
          · subst h; revert hx; decide
          · simpa using h
        have hk : Options.keyCh x = false := by simp [Options.keyCh, hx]
        simp only [search, Options.quotedRe, plus, hq, hk, tick, orTry]
        simp
    · show 1 ≤ _
      simp only [List.length_cons]
      omega

theorem run_piece_rest (prev : Option Char) (s : Str) (m : M Char) (h : m ∈ run Options.pieceRe prev s) : m.rest.length < s.length := by
  unfold Options.pieceRe at h
  have hs := run_split _ _ _ _ h
  simp only [run, List.mem_flatMap, andThen, List.mem_map] at h
  obtain ⟨m1, h1, m2, _, rfl⟩ := h
  have : m1.txt.length = 1 := by
    cases s with
    | nil => simp [run] at h1
    | cons c cs =>
      simp only [run] at h1
      split at h1 <;> simp at h1
      subst h1; rfl
  rw [← hs]
  simp
  omega

theorem findCost_le (f : Nat) : ∀ (prev : Option Char) (s : Str), findCost Options.pieceRe f prev s ≤ (s.length + 1) * (92 * (s.length + 1)) := by
  have key : ∀ (N f : Nat) (prev : Option Char) (s : Str), s.length ≤ N → findCost Options.pieceRe f prev s ≤ (s.length + 1) * (92 * (N + 1)) := by
    intro N f
    induction f with
    | zero => intro prev s _; simp [findCost]
    | succ f ih =>
      intro prev s hN
      have h1 := piece_le prev s
      have h1' : attempts Options.pieceRe prev s ≤ 92 * (N + 1) := Nat.le_trans h1 (Nat.mul_le_mul_left _ (by omega))
      simp only [findCost]
      cases hf : first Options.pieceRe prev s with
      | some m =>
        have hm : m ∈ run Options.pieceRe prev s := List.mem_of_mem_head? (by simpa [first] using hf)
        have hl := run_piece_rest prev s m hm
        have h2 := ih (after prev m.txt) m.rest (by omega)
        have h3 : (m.rest.length + 1) * (92 * (N + 1)) ≤ s.length * (92 * (N + 1)) := Nat.mul_le_mul_right _ (by omega)
        simp only
        rw [Nat.add_mul, Nat.one_mul]
        omega
      | none =>
        cases s with
        | nil => simp only [List.length_nil]; omega
        | cons c cs =>
          have h2 := ih (some c) cs (by simp at hN; omega)
          simp only [List.length_cons]
          rw [Nat.add_mul (cs.length + 1), Nat.one_mul]
          omega
  intro prev s
  exact key s.length f prev s (Nat.le_refl _)

/-- C147.  Parsing a header with options makes at most quadratically many attempts. -/
theorem C147_options (value : Str) : optionsCost value ≤ 92 * (value.length + 2) ^ 2 := by
  unfold optionsCost
  split
  · omega
  · refine Nat.le_trans (findCost_le _ _ _) (Nat.le_of_eq ?_)
    simp only [List.length_cons]
    rw [Nat.pow_two, Nat.mul_left_comm]

example : optionsCost s%"a; b=\"c\"" ≤ 92 * 10 ^ 2 := C147_options _
example : optionsCost s%"a; b=\"c\"" ≠ 0 := by decide +kernel

/-! ### `Accept` -/

theorem token_le (k : Rest Char) (b B : Nat) (prev : Option Char) (s : Str)
    (hb : ∀ prev' c cs, (Accept.alnum c || c == '-') = true → (c :: cs).length ≤ s.length → (k prev' (c :: cs)).1 ≤ b)
    (hB : ∀ prev' s', s'.length ≤ s.length → (k prev' s').1 ≤ B) :
    (search Accept.tokenRe k prev s).1 ≤ s.length * (b + 4) + B + 5 := by
  unfold Accept.tokenRe plus
  cases s with
  | nil => simp [search]
  | cons c cs =>
    rw [search, search, search]
    split
    · have := star_cls_le true Accept.alnum (search (star true (seq (cls (· == '-')) (seq (cls Accept.alnum) (star true (cls Accept.alnum))))) k)
        (b + 2) (b + 4) (B + 2) (by omega) cs.length (some c) cs ?_ ?_
      · rw [search]
        simp only [tick, List.length_cons]
        refine Nat.le_trans (Nat.add_le_add_right this 1) ?_
        rw [Nat.add_mul cs.length]
        omega
      · intro p' x xs hx hl
        have hx1 : (x == '-') = false := by
          by_cases h : x = '-'
          · subst h; revert hx; decide
          · simpa using h
        have := hb p' x xs (by simp [hx]) (by simp at hl ⊢; omega)
        rw [search]
        exact Nat.le_trans (star_head_le true (· == '-') _ _ _ p' x xs hx1) (by omega)
      · intro p' s' _ hl
        rw [search]
        refine Nat.le_trans (star_sep_le true (· == '-') Accept.alnum Accept.alnum ?_ k b B s'.length p' s' ?_ ?_) (by omega)
        · intro y hy; simp at hy; subst hy; decide
        · intro p'' y ys hy hl'; exact hb p'' y ys hy (by simp at hl' ⊢; omega)
        · intro p'' s'' _ hl'; exact hB p'' s'' (by simp; omega)
    · simp only; omega

/-- C147.  Reading a value of an `Accept` header makes at most linearly many attempts. -/
theorem C147_accept (k : Accept.Kind) (v : Str) : acceptCost k v ≤ 81 * (v.length + 1) := by
  have hval : attempts Accept.valueRe none v ≤ 81 * (v.length + 1) := by
    unfold attempts Accept.valueRe
    have h1 := token_le (done : Rest Char) 0 0 none v (fun _ _ _ _ _ => Nat.le_refl _) (fun _ _ _ => Nat.le_refl _)
    have h2 := deg_seq (deg_cls (fun c : Char => c == '*')) (deg_eos (fun c : Char => c == '\n')) done 0 none v (fun _ _ _ => Nat.le_refl _)
    have h3 := orTry_le (search Accept.tokenRe done none v) (search (seq (cls (fun c : Char => c == '*')) (eos (fun c : Char => c == '\n'))) done none v)
    rw [search]
    show (orTry _ _).1 + 1 ≤ _
    simp only [Nat.add_zero, Nat.pow_zero] at h2
    omega
  have cls1 : ∀ (p : Char → Bool) (k : Rest Char) (B : Nat) (prev : Option Char) (s : Str),
      (∀ prev' s', s'.length ≤ s.length → (k prev' s').1 ≤ B) → (search (cls p) k prev s).1 ≤ B + 1 := by
    intro p k B prev s hk
    have := deg_cls p k B prev s hk
    simpa using this
  have hct : attempts Accept.contentTypeRe none v ≤ 81 * (v.length + 1) := by
    unfold attempts Accept.contentTypeRe
    simp only [cat, opt]
    -- the suffix
    have h3 : ∀ prev' s', s'.length ≤ v.length → (search (alt (seq (cls (· == '+')) Accept.tokenRe) eps) done prev' s').1 ≤ 4 * v.length + 8 := by
      intro p' s' hl
      have a := cls1 (· == '+') (search Accept.tokenRe done) (4 * v.length + 5) p' s' (fun p'' s'' hl' => by
        have := token_le (done : Rest Char) 0 0 p'' s'' (fun _ _ _ _ _ => Nat.le_refl _) (fun _ _ _ => Nat.le_refl _)
        omega)
      have e : (search (seq (cls (· == '+')) Accept.tokenRe) done p' s').1 =
        (search (cls (· == '+')) (search Accept.tokenRe done) p' s').1 := rfl
      have c : (search eps (done : Rest Char) p' s').1 = 1 := rfl
      rw [search]
      show (orTry _ _).1 + 1 ≤ _
      exact Nat.le_trans (Nat.add_le_add_right (orTry_le _ _) 1) (by omega)
    have h3b : ∀ prev' c cs, (Accept.alnum c || c == '-') = true →
        (search (alt (seq (cls (· == '+')) Accept.tokenRe) eps) done prev' (c :: cs)).1 ≤ 3 := by
      intro p' c cs hc
      have hx1 : (c == '+') = false := by
        by_cases h : c = '+'
        · subst h; revert hc; decide
        · simpa using h
      simp [search, hx1, tick, orTry, done]
    have h2 : ∀ prev' s', s'.length ≤ v.length →
        (search Accept.tokenRe (search (alt (seq (cls (· == '+')) Accept.tokenRe) eps) done) prev' s').1 ≤ 11 * v.length + 13 := by
      intro p' s' hl
      have := token_le (search (alt (seq (cls (· == '+')) Accept.tokenRe) eps) done) 3 (4 * v.length + 8) p' s'
        (fun p'' c cs hc _ => h3b p'' c cs hc) (fun p'' s'' hl' => h3 p'' s'' (by omega))
      omega
    have h1 : ∀ prev' s', s'.length ≤ v.length →
        (search (seq (alt (seq Accept.tokenRe (cls (· == '.'))) eps) (seq Accept.tokenRe (alt (seq (cls (· == '+')) Accept.tokenRe) eps)))
          done prev' s').1 ≤ 27 * v.length + 34 := by
      intro p' s' hl
      rw [search, search]
      have a := token_le (search (cls (· == '.')) (search (seq Accept.tokenRe (alt (seq (cls (· == '+')) Accept.tokenRe) eps)) done)) 1
        (11 * v.length + 14) p' s' (fun p'' c cs hc _ => by
          have hx1 : (c == '.') = false := by
            by_cases h : c = '.'
            · subst h; revert hc; decide
            · simpa using h
          simp [search, hx1]) (fun p'' s'' hl' => by
          refine cls1 _ _ (11 * v.length + 13) p'' s'' (fun p3 s3 hl3 => ?_)
          rw [search]
          exact h2 p3 s3 (by omega))
      have b := h2 p' s' hl
      have c := orTry_le (search (seq Accept.tokenRe (cls (· == '.'))) (search (seq Accept.tokenRe (alt (seq (cls (· == '+')) Accept.tokenRe) eps)) done) p' s')
        (search eps (search (seq Accept.tokenRe (alt (seq (cls (· == '+')) Accept.tokenRe) eps)) done) p' s')
      have d : (search eps (search (seq Accept.tokenRe (alt (seq (cls (· == '+')) Accept.tokenRe) eps)) done) p' s').1 =
        (search Accept.tokenRe (search (alt (seq (cls (· == '+')) Accept.tokenRe) eps) done) p' s').1 + 1 := rfl
      show (orTry _ _).1 + 1 ≤ _
      have e : (search (seq Accept.tokenRe (cls (· == '.'))) (search (seq Accept.tokenRe (alt (seq (cls (· == '+')) Accept.tokenRe) eps)) done) p' s').1 =
        (search Accept.tokenRe (search (cls (· == '.')) (search (seq Accept.tokenRe (alt (seq (cls (· == '+')) Accept.tokenRe) eps)) done)) p' s').1 := rfl
      omega
    have h0 : ∀ prev' s', s'.length ≤ v.length →
        (search (alt (seq (alt (seq Accept.tokenRe (cls (· == '.'))) eps) (seq Accept.tokenRe (alt (seq (cls (· == '+')) Accept.tokenRe) eps)))
          (cls (· == '*'))) done prev' s').1 ≤ 27 * v.length + 36 := by
      intro p' s' hl
      have a := h1 p' s' hl
      have b := cls1 (· == '*') (done : Rest Char) 0 p' s' (fun _ _ _ => Nat.le_refl _)
      rw [search]
      show (orTry _ _).1 + 1 ≤ _
      exact Nat.le_trans (Nat.add_le_add_right (orTry_le _ _) 1) (by omega)
    rw [search]
    generalize hK : search (seq (cls (· == '/')) (alt (seq (alt (seq Accept.tokenRe (cls (· == '.'))) eps) (seq Accept.tokenRe
      (alt (seq (cls (· == '+')) Accept.tokenRe) eps))) (cls (· == '*')))) done = K
    have hK1 : ∀ prev' s', s'.length ≤ v.length → (K prev' s').1 ≤ 27 * v.length + 37 := by
      intro p' s' hl
      rw [← hK, search]
      exact cls1 _ _ (27 * v.length + 36) p' s' (fun p'' s'' hl' => h0 p'' s'' (by omega))
    have hKb : ∀ prev' c cs, (Accept.alnum c || c == '-') = true → (K prev' (c :: cs)).1 ≤ 1 := by
      intro p' c cs hc
      have hx1 : (c == '/') = false := by
        by_cases h : c = '/'
        · subst h; revert hc; decide
        · simpa using h
      rw [← hK]
      simp [search, hx1]
    have a := token_le K 1 (27 * v.length + 37) none v (fun p'' c cs hc _ => hKb p'' c cs hc) hK1
    have b := cls1 (· == '*') K (27 * v.length + 37) none v hK1
    rw [search]
    show (orTry _ _).1 + 1 ≤ _
    exact Nat.le_trans (Nat.add_le_add_right (orTry_le _ _) 1) (by omega)
  cases k
  · exact hct
  · exact hval
  · exact hval

example : acceptCost .contentType s%"text/vnd.a+b" ≤ 81 * 13 := C147_accept _ _
example : acceptCost .contentType s%"text/vnd.a+b" ≠ 0 := by decide +kernel

/-! ### entity tags -/

theorem etagEnd_le (n : Nat) (prev : Option Char) (s : Str) (h : s.length ≤ n) : (search Etag.etagEnd done prev s).1 ≤ 5 * n + 7 := by
  have h2 := deg_eos (fun c : Char => c == '\n') done 0 prev s (fun _ _ _ => Nat.le_refl _)
  have h1 := star_cls_le true Py.isSpace (search (seq (cls (· == ',')) (star true (cls Py.isSpace))) done) 1 3 (2 * n + 3) (by omega)
    s.length prev s ?_ ?_
  · unfold Etag.etagEnd
    rw [search]
    show (orTry _ _).1 + 1 ≤ _
    refine Nat.le_trans (Nat.add_le_add_right (orTry_le _ _) 1) ?_
    rw [search, search]
    simp only [Nat.pow_zero] at h2
    omega
  · intro p' x xs hx _
    have hx1 : (x == ',') = false := by
      by_cases h : x = ','
      · subst h; revert hx; decide
      · simpa using h
    simp [search, hx1]
  · intro p' s' _ hl
    cases s' with
    | nil => simp [search]
    | cons c cs =>
      rw [search, search]
      split
      · have := (spaces_done (some c) cs).1
        simp only [tick, List.length_cons] at hl ⊢
        omega
      · simp only; omega

theorem etag_le (prev : Option Char) (s : Str) : attempts Etag.etagRe prev s ≤ 124 * (s.length + 1) ^ 2 := by
  have hM : ∀ s' : Str, s'.length ≤ s.length → 3 * (s'.length + 1) ^ 1 * (5 * s.length + 8 + 1) ≤ 27 * (s.length + 1) ^ 2 := by
    intro s' hl
    have : 3 * (s'.length + 1) ^ 1 * (5 * s.length + 8 + 1) ≤ 3 * (s.length + 1) * (9 * (s.length + 1)) := by
      rw [Nat.pow_one]
      exact Nat.mul_le_mul (by omega) (by omega)
    refine Nat.le_trans this (Nat.le_of_eq ?_)
    rw [Nat.pow_two, Nat.mul_mul_mul_comm]
  have h1 : 1 ≤ (s.length + 1) ^ 2 := Nat.one_le_pow _ _ (by omega)
  have hq : ∀ prev' s', s'.length ≤ s.length → (search Etag.etagQuoted (search Etag.etagEnd done) prev' s').1 ≤ 29 * (s.length + 1) ^ 2 := by
    intro p' s' hl
    unfold Etag.etagQuoted
    cases s' with
    | nil => simp only [search]; omega
    | cons c cs =>
      rw [search, search]
      split
      · have hl' : cs.length ≤ s.length := by simp at hl; omega
        have := deg_star_cls false Etag.dot (search (cls (· == '"')) (search Etag.etagEnd done)) (5 * s.length + 8) (some c) cs
          (fun p'' s'' hs'' => by
            have := deg_cls (fun c : Char => c == '"') (search Etag.etagEnd done) (5 * s.length + 7) p'' s'' (fun p3 s3 h3 =>
              etagEnd_le s.length p3 s3 (by omega))
            simp only [Nat.pow_zero] at this
            omega)
        have := Nat.le_trans this (hM cs hl')
        rw [search, search]
        simp only [tick]
        omega
      · simp only; omega
  have hg : ∀ prev' s', s'.length ≤ s.length → (search (grp 3 (star false (cls Etag.dot))) (search Etag.etagEnd done) prev' s').1 ≤
      28 * (s.length + 1) ^ 2 := by
    intro p' s' hl
    have := deg_star_cls false Etag.dot (search Etag.etagEnd done) (5 * s.length + 8) p' s'
      (fun p'' s'' hs'' => Nat.le_trans (etagEnd_le s.length p'' s'' (by omega)) (by omega))
    have := Nat.le_trans this (hM s' hl)
    rw [search]
    simp only [tick]
    omega
  have ha : ∀ prev' s', s'.length ≤ s.length →
      (search (seq (alt Etag.etagQuoted (grp 3 (star false (cls Etag.dot)))) Etag.etagEnd) done prev' s').1 ≤ 58 * (s.length + 1) ^ 2 := by
    intro p' s' hl
    rw [search, search]
    show (orTry _ _).1 + 1 ≤ _
    refine Nat.le_trans (Nat.add_le_add_right (orTry_le _ _) 1) ?_
    have := hq p' s' hl
    have := hg p' s' hl
    omega
  unfold attempts Etag.etagRe Etag.etagWeak opt
  rw [search]
  have hw := deg_grp 1 (deg_seq (deg_cls (fun c : Char => c == 'W' || c == 'w')) (deg_cls (fun c : Char => c == '/')))
  have hs := ha prev s (Nat.le_refl _)
  generalize hK : search (seq (alt Etag.etagQuoted (grp 3 (star false (cls Etag.dot)))) Etag.etagEnd) done = K at ha hs
  have h2 : (search (grp 1 (seq (cls fun c => c == 'W' || c == 'w') (cls (· == '/')))) K prev s).1 ≤ 58 * (s.length + 1) ^ 2 + 3 := by
    rw [search, search]
    show _ + 1 ≤ _
    have := deg_cls (fun c : Char => c == 'W' || c == 'w') (search (cls (· == '/')) K) (58 * (s.length + 1) ^ 2 + 1) prev s (fun p' s' hl => by
      have := deg_cls (fun c : Char => c == '/') K (58 * (s.length + 1) ^ 2) p' s' (fun p'' s'' hl' => ha p'' s'' (by omega))
      simp only [Nat.pow_zero, Nat.one_mul] at this
      exact this)
    simp only [Nat.pow_zero, Nat.one_mul] at this
    omega
  rw [search]
  show (orTry _ _).1 + 1 ≤ _
  refine Nat.le_trans (Nat.add_le_add_right (orTry_le _ _) 1) ?_
  have : (search eps K prev s).1 = (K prev s).1 + 1 := rfl
  omega

/-- C147.  Every round of the loop over entity tags makes at most quadratically many attempts. -/
theorem C147_etag_rounds (fuel : Nat) (value : Str) : etagCost fuel value ≤ fuel * (124 * (value.length + 1) ^ 2) := by
  have key : ∀ (f : Nat) (s : Str), s.length ≤ value.length → etagCost f s ≤ f * (124 * (value.length + 1) ^ 2) := by
    intro f
    induction f with
    | zero => intro s _; simp [etagCost]
    | succ f ih =>
      intro s hs
      simp only [etagCost]
      split
      · omega
      · have h1 := etag_le none s
        have h2 : 124 * (s.length + 1) ^ 2 ≤ 124 * (value.length + 1) ^ 2 := Nat.mul_le_mul_left _ (Nat.pow_le_pow_left (by omega) _)
        have h3 : (match first Etag.etagRe none s with
            | none => 0
            | some m => if m.group 3 = some s%"*" then 0 else etagCost f m.rest) ≤ f * (124 * (value.length + 1) ^ 2) := by
          cases hf : first Etag.etagRe none s with
          | none => simp
          | some m =>
            have hm : m ∈ run Etag.etagRe none s := List.mem_of_mem_head? (by simpa [first] using hf)
            have hsp := congrArg List.length (run_split _ _ _ _ hm)
            rw [List.length_append] at hsp
            simp only
            split
            · omega
            · exact ih m.rest (by omega)
        refine Nat.le_trans (Nat.add_le_add (Nat.le_trans h1 h2) h3) ?_
        rw [Nat.add_mul, Nat.one_mul]
        omega
  exact key fuel value (Nat.le_refl _)

/-- C147.  Where a header of entity tags does not end in a newline, parsing it ends and makes at most cubically many attempts. -/
theorem C147_etag (value : Str) (h : value.getLast? ≠ some '\n') :
    (∃ tags, Etag.parseEtags (value.length + 1) (some value) = some tags) ∧
    etagCost (value.length + 1) value ≤ 124 * (value.length + 1) ^ 3 := by
  refine ⟨Props.C18_terminates_partial value h, Nat.le_trans (C147_etag_rounds _ _) (Nat.le_of_eq ?_)⟩
  rw [Nat.pow_succ _ 2, Nat.mul_left_comm, Nat.mul_comm ((value.length + 1) ^ 2)]

example : s%"\"a\", W/\"b\"".getLast? ≠ some '\n' ∧ etagCost 12 s%"\"a\", W/\"b\"" ≠ 0 := by decide +kernel

/-! ### cookies -/

theorem quotedVal_deg : ∃ c, Deg Cookie.quotedVal c 1 := by
  refine ⟨_, deg_seq (deg_cls _) (deg_seq (deg_star_once true _ 4 ?_) (deg_cls _))⟩
  intro k B prev s hk _
  cases s with
  | nil => simp [search, tick, orTry]; omega
  | cons c cs =>
    by_cases h92 : c = 92
    · subst h92
      cases cs with
      | nil => simp [search, tick, orTry]
      | cons d ds =>
        have := hk (some d) ds (by simp; omega)
        by_cases h10 : d = 10
        · subst h10; simp [search, tick, orTry]
        · simp [search, tick, orTry, h10]; omega
    · have := hk (some c) cs (by simp)
      have h92' : (c == 92) = false := by simpa using h92
      by_cases h34 : c = 34
      · subst h34; simp [search, tick, orTry]; omega
      · have e : (c != 92 && c != 34) = true := by simp [h92, h34]
        simp only [search, e, h92', if_true, tick, orTry]
        split <;> simp <;> omega

theorem cookie_deg : ∃ c, Deg Cookie.cookieRe c 5 := by
  obtain ⟨c, hc⟩ := quotedVal_deg
  exact ⟨_, deg_seq (deg_grp 1 (deg_seq (deg_cls _) (deg_star_cls true _))) (deg_seq (deg_star_cls true _) (deg_seq (deg_cls _)
    (deg_seq (deg_star_cls true _) (deg_seq (deg_grp 2 (deg_alt hc (deg_star_cls false _))) (deg_seq (deg_star_cls true _) (deg_cls _))))))⟩

theorem run_cookie_rest (prev : Option UInt8) (s : Bytes) (m : M UInt8) (h : m ∈ run Cookie.cookieRe prev s) : m.rest.length < s.length := by
  unfold Cookie.cookieRe plus at h
  have hs := run_split _ _ _ _ h
  simp only [run, List.mem_flatMap, andThen, List.mem_map] at h
  obtain ⟨m1, ⟨m0, ⟨m3, h3, m4, _, rfl⟩, rfl⟩, m2, _, rfl⟩ := h
  have : m3.txt.length = 1 := by
    cases s with
    | nil => simp [run] at h3
    | cons c cs =>
      simp only [run] at h3
      split at h3 <;> simp at h3
      subst h3; rfl
  rw [← hs]
  simp
  omega

theorem searchCost_le (A : Nat) (s : Bytes) (hA : ∀ s' : Bytes, s'.length ≤ s.length → attempts Cookie.cookieRe none s' ≤ A) :
    (∀ m, Cookie.searchRe Cookie.cookieRe s = some m → m.rest.length < s.length ∧
      searchCost Cookie.cookieRe s ≤ (s.length - m.rest.length) * A) ∧
    searchCost Cookie.cookieRe s ≤ (s.length + 1) * A := by
  induction s with
  | nil =>
    have := hA [] (Nat.le_refl _)
    simp only [Cookie.searchRe, searchCost]
    refine ⟨fun m hm => ?_, by simpa using this⟩
    have hm : m ∈ run Cookie.cookieRe none [] := List.mem_of_mem_head? (by simpa [first] using hm)
    exact absurd (run_cookie_rest none [] m hm) (by simp)
  | cons c cs ih =>
    have h1 := hA (c :: cs) (Nat.le_refl _)
    obtain ⟨ih1, ih2⟩ := ih fun s' hl => hA s' (by simp; omega)
    simp only [Cookie.searchRe, searchCost]
    cases hf : first Cookie.cookieRe none (c :: cs) with
    | some m =>
      have hm : m ∈ run Cookie.cookieRe none (c :: cs) := List.mem_of_mem_head? (by simpa [first] using hf)
      have hl := run_cookie_rest none _ m hm
      simp only [Option.some.injEq]
      constructor
      · rintro _ rfl
        refine ⟨hl, ?_⟩
        have : 1 * A ≤ ((c :: cs).length - m.rest.length) * A := Nat.mul_le_mul_right _ (by omega)
        omega
      · rw [Nat.add_mul, Nat.one_mul]; omega
    | none =>
      simp only
      constructor
      · intro m hm
        obtain ⟨h3, h4⟩ := ih1 m hm
        refine ⟨by simp; omega, ?_⟩
        have e : (c :: cs).length - m.rest.length = (cs.length - m.rest.length) + 1 := by simp; omega
        rw [e, Nat.add_mul, Nat.one_mul]
        omega
      · simp only [List.length_cons]
        rw [Nat.add_mul (cs.length + 1), Nat.one_mul]; omega

theorem cookieLoop_le (A N : Nat) (hA : ∀ s' : Bytes, s'.length ≤ N → attempts Cookie.cookieRe none s' ≤ A) (f : Nat) :
    ∀ s : Bytes, s.length ≤ N → cookieLoop f s ≤ (s.length + 1) * A := by
  induction f with
  | zero => intro s _; simp [cookieLoop]
  | succ f ih =>
    intro s hs
    simp only [cookieLoop]
    split
    · omega
    · obtain ⟨h1, h2⟩ := searchCost_le A s fun s' hl => hA s' (by omega)
      cases hf : Cookie.searchRe Cookie.cookieRe s with
      | none => simpa using h2
      | some m =>
        obtain ⟨h3, h4⟩ := h1 m hf
        have h5 := ih m.rest (by omega)
        have e : (s.length + 1) * A = (s.length - m.rest.length) * A + (m.rest.length + 1) * A := by
          rw [← Nat.add_mul]; congr 1; omega
        simp only
        omega

/-- C147.  Parsing a cookie header makes at most polynomially many attempts. -/
theorem C147_cookie : ∃ c, ∀ b : Bytes, cookieCost b ≤ c * (b.length + 2) ^ 6 := by
  obtain ⟨c, hc⟩ := cookie_deg
  refine ⟨c, fun b => ?_⟩
  unfold cookieCost
  refine Nat.le_trans (cookieLoop_le (c * (b.length + 2) ^ 5) (b.length + 1) (fun s' hl => ?_) _ _ (by simp)) (Nat.le_of_eq ?_)
  · exact Nat.le_trans (attempts_le hc none s') (Nat.mul_le_mul_left _ (Nat.pow_le_pow_left (by omega) _))
  · simp only [List.length_append, List.length_cons, List.length_nil, Nat.zero_add]
    rw [Nat.pow_succ _ 5, Nat.mul_left_comm, Nat.mul_comm ((b.length + 2) ^ 5)]

/-- The text of a header of spaces, with the semicolon that is added. -/
def blanks (n : Nat) : Bytes := List.replicate n 32 ++ [59]

theorem blanks_succ (n : Nat) : blanks (n + 1) = 32 :: blanks n := rfl

theorem star_fails (g : Bool) (p : UInt8 → Bool) (k : Rest UInt8) (hk : ∀ prev s, 61 ∉ s → (k prev s).2 = false) (f : Nat) :
    ∀ (prev : Option UInt8) (s : Bytes), 61 ∉ s → (starSearch g (search (cls p)) k f prev s).2 = false := by
  induction f with
  | zero => intro prev s h; simp [starSearch, tick, hk prev s h]
  | succ f ih =>
    intro prev s h
    have h0 := hk prev s h
    have h1 : (search (cls p) (fun prev' s' => if s'.length < s.length then starSearch g (search (cls p)) k f prev' s' else (0, false))
        prev s).2 = false := by
      cases s with
      | nil => rfl
      | cons c cs =>
        simp only [search]
        split
        · simp only [tick, List.length_cons, Nat.lt_succ_self, if_true]
          exact ih (some c) cs (fun hm => h (List.mem_cons_of_mem _ hm))
        · rfl
    cases g <;> simp only [starSearch, tick, orTry_snd, if_true, Bool.false_eq_true, if_false, h0, h1, Bool.or_false]

theorem eq_fails (k : Rest UInt8) (prev : Option UInt8) (s : Bytes) (h : 61 ∉ s) : search (cls (· == 61)) k prev s = (1, false) := by
  cases s with
  | nil => rfl
  | cons c cs =>
    have : (c == 61) = false := by
      by_cases hc : c = 61
      · subst hc; simp at h
      · simpa using hc
    simp [search, this]

theorem not_mem_blanks (n : Nat) : (61 : UInt8) ∉ blanks n := by
  intro h
  simp [blanks] at h

/-- Spaces are tried to the end, each time anew. -/
theorem ws_ge (k : Rest UInt8) (f : Nat) : ∀ (n : Nat) (prev : Option UInt8), n ≤ f →
    n + 1 ≤ (starSearch true (search (cls Cookie.isWs)) (search (cls (· == 61)) k) f prev (blanks n)).1 := by
  induction f with
  | zero =>
    intro n prev h
    obtain rfl : n = 0 := by omega
    simp [starSearch, tick]
  | succ f ih =>
    intro n prev h
    cases n with
    | zero => simp only [starSearch, tick]; omega
    | succ n =>
      have h1 := ih n (some 32) (by omega)
      have h2 := star_fails true Cookie.isWs (search (cls (· == 61)) k) (fun p s hs => by rw [eq_fails k p s hs]) f (some 32) (blanks n)
        (not_mem_blanks n)
      have e : Cookie.isWs 32 = true := by decide
      simp only [starSearch, blanks_succ, search, e, if_true, List.length_cons, Nat.lt_succ_self, tick, orTry]
      rw [h2]
      simp only [Bool.false_eq_true, if_false]
      omega

/-- What follows the name, at spaces. -/
theorem name_ge (K : Rest UInt8) (hf : ∀ prev s, 61 ∉ s → (K prev s).2 = false) (hK : ∀ prev n, n + 1 ≤ (K prev (blanks n)).1) (f : Nat) :
    ∀ (n : Nat) (prev : Option UInt8), n ≤ f →
    (n + 1) * (n + 2) ≤ 2 * (starSearch true (search (cls (· != 61))) K f prev (blanks n)).1 := by
  induction f with
  | zero =>
    intro n prev h
    obtain rfl : n = 0 := by omega
    have := hK prev 0
    simp only [starSearch, tick]
    omega
  | succ f ih =>
    intro n prev h
    have h0 := hK prev n
    cases n with
    | zero =>
      simp only [starSearch, tick, if_true]
      omega
    | succ n =>
      have h1 := ih n (some 32) (by omega)
      have h2 := star_fails true (· != 61) K hf f (some 32) (blanks n) (not_mem_blanks n)
      have e : ((32 : UInt8) != 61) = true := by decide
      simp only [starSearch, blanks_succ, search, e, if_true, List.length_cons, Nat.lt_succ_self, tick, orTry]
      rw [← blanks_succ]
      rw [h2]
      simp only [Bool.false_eq_true, if_false]
      have e2 : (n + 1 + 1) * (n + 1 + 2) = (n + 1) * (n + 2) + 2 * (n + 2) := by
        simp only [Nat.add_mul, Nat.mul_add]; omega
      omega

theorem attempt_ge (n : Nat) (prev : Option UInt8) : (n + 1) * (n + 2) ≤ 2 * attempts Cookie.cookieRe prev (blanks (n + 1)) ∧
    first Cookie.cookieRe prev (blanks (n + 1)) = none := by
  unfold attempts
  have hnone : (search Cookie.cookieRe done prev (blanks (n + 1))).2 = false → first Cookie.cookieRe prev (blanks (n + 1)) = none := by
    intro h
    rw [search_first] at h
    cases hf : first Cookie.cookieRe prev (blanks (n + 1)) with
    | none => rfl
    | some m => rw [hf] at h; cases h
  have key : (n + 1) * (n + 2) ≤ 2 * (search Cookie.cookieRe done prev (blanks (n + 1))).1 ∧
      (search Cookie.cookieRe done prev (blanks (n + 1))).2 = false := by
    unfold Cookie.cookieRe plus
    rw [search]
    generalize hX : (seq (star true (cls Cookie.isWs)) (seq (grp 2 (alt Cookie.quotedVal (star false (cls (· != 10)))))
      (seq (star true (cls Cookie.isWs)) (cls (· == 59))))) = X
    generalize hK : search (seq (star true (cls Cookie.isWs)) (seq (cls (· == 61)) X)) done = K
    have hf : ∀ prev s, 61 ∉ s → (K prev s).2 = false := by
      intro p s hs
      rw [← hK, search, search]
      exact star_fails true Cookie.isWs _ (fun p' s' hs' => by rw [search, eq_fails _ p' s' hs']) _ p s hs
    have hg : ∀ prev n, n + 1 ≤ (K prev (blanks n)).1 := by
      intro p m
      rw [← hK, search, search]
      have := ws_ge (search X done) (blanks m).length m p (by simp [blanks])
      exact this
    have h1 := name_ge K hf hg (blanks n).length n (some 32) (by simp [blanks])
    have h2 := star_fails true (· != 61) K hf (blanks n).length (some 32) (blanks n) (not_mem_blanks n)
    have e : ((32 : UInt8) != 61) = true := by decide
    rw [search, search, blanks_succ, search]
    simp only [e, if_true, tick]
    rw [search]
    exact ⟨by omega, h2⟩
  exact ⟨key.1, hnone key.2⟩

theorem search_ge (n : Nat) : n * (n + 1) * (n + 2) ≤ 6 * searchCost Cookie.cookieRe (blanks n) := by
  induction n with
  | zero => simp
  | succ n ih =>
    obtain ⟨h1, h2⟩ := attempt_ge n none
    have e : searchCost Cookie.cookieRe (blanks (n + 1)) = attempts Cookie.cookieRe none (blanks (n + 1)) + searchCost Cookie.cookieRe (blanks n) := by
      rw [blanks_succ] at h2 ⊢
      rw [searchCost, h2]
    rw [e]
    have e2 : (n + 1) * (n + 1 + 1) * (n + 1 + 2) = n * (n + 1) * (n + 2) + 3 * ((n + 1) * (n + 2)) := by
      have : (n + 1) * (n + 1 + 1) * (n + 1 + 2) = (n + 3) * ((n + 1) * (n + 2)) := Nat.mul_comm _ _
      rw [this, Nat.add_mul, Nat.mul_assoc]
    omega

/-- C147 (limits).  A cookie header of `n` spaces takes more than `n ^ 3 / 6` attempts: a request of 8 kB takes some ninety thousand
million.  No quadratic bound holds. -/
theorem C147_cookie_limits (n : Nat) : n ^ 3 ≤ 6 * cookieCost (List.replicate n 32) := by
  cases n with
  | zero => simp
  | succ n =>
    have h := search_ge (n + 1)
    have e : searchCost Cookie.cookieRe (blanks (n + 1)) ≤ cookieCost (List.replicate (n + 1) 32) := by
      unfold cookieCost
      rw [List.length_replicate, cookieLoop, if_neg (by simp)]
      exact Nat.le_add_right _ _
    have e3 : (n + 1) ^ 3 ≤ (n + 1) * (n + 1 + 1) * (n + 1 + 2) := by
      rw [Nat.pow_succ, Nat.pow_two]
      exact Nat.mul_le_mul (Nat.mul_le_mul_left _ (by omega)) (by omega)
    omega

theorem C147_cookie_quadratic_false : ¬ ∃ c, ∀ b : Bytes, cookieCost b ≤ c * (b.length + 1) ^ 2 := by
  rintro ⟨c, h⟩
  have h1 := h (List.replicate (24 * c + 24) 32)
  have h2 := C147_cookie_limits (24 * c + 24)
  rw [List.length_replicate] at h1
  generalize cookieCost (List.replicate (24 * c + 24) 32) = X at h1 h2
  generalize hN : 24 * c + 24 = N at h1 h2
  have h3 : (N + 1) ^ 2 ≤ (2 * N) ^ 2 := Nat.pow_le_pow_left (by omega) _
  have h4 : (2 * N) ^ 2 = 4 * N ^ 2 := by rw [Nat.mul_pow]
  have h5 : N ^ 3 = N * N ^ 2 := by rw [Nat.pow_succ, Nat.mul_comm]
  have h6 : c * (N + 1) ^ 2 ≤ c * (4 * N ^ 2) := Nat.mul_le_mul_left _ (by omega)
  have h7 : N * N ^ 2 ≤ (24 * c) * N ^ 2 := by
    have : 6 * (c * (4 * N ^ 2)) = (24 * c) * N ^ 2 := by
      generalize N ^ 2 = q
      rw [Nat.mul_left_comm c 4 q, ← Nat.mul_assoc 6 4, ← Nat.mul_assoc]
    omega
  have h8 : 0 < N ^ 2 := Nat.pow_pos (by omega)
  have := Nat.le_of_mul_le_mul_right h7 h8
  omega

example : cookieCost (List.replicate 3 32) ≥ 5 := by
  have := C147_cookie_limits 3
  omega

/-! ### routes -/

theorem flat_lit (s : Str) : flat (lit s) = true ∧ degree (lit s) = 0 := by
  induction s with
  | nil => exact ⟨rfl, rfl⟩
  | cons c cs ih =>
    cases cs with
    | nil => exact ⟨rfl, rfl⟩
    | cons d ds => simpa [lit, flat, degree] using ih

theorem flat_seqs (l : List (Re Char)) (r : Re Char) (hl : ∀ a ∈ l, flat a = true) (hr : flat r = true) :
    flat (Routing.seqs l r) = true ∧ degree (Routing.seqs l r) = (l.map degree).sum + degree r := by
  induction l with
  | nil => simp [Routing.seqs, hr]
  | cons a as ih =>
    obtain ⟨h1, h2⟩ := ih fun b hb => hl b (List.mem_cons_of_mem _ hb)
    simp only [Routing.seqs, flat, degree, hl a (by simp), h1, h2, List.map_cons, List.sum_cons]
    exact ⟨rfl, by omega⟩

theorem flat_parts (n : Nat) (ps : List Routing.Part) (h : ∀ v ∈ Routing.vars ps, flat v.2.re = true) :
    (∀ a ∈ Routing.partsRe n ps, flat a = true) ∧
    ((Routing.partsRe n ps).map degree).sum = ((Routing.vars ps).map fun v => degree v.2.re).sum := by
  induction ps generalizing n with
  | nil => exact ⟨by simp [Routing.partsRe], rfl⟩
  | cons p ps ih =>
    cases p with
    | text s =>
      have ⟨h1, h2⟩ := ih n (by simpa [Routing.vars] using h)
      refine ⟨?_, ?_⟩
      · intro a ha
        simp only [Routing.partsRe, List.mem_cons] at ha
        rcases ha with rfl | ha
        · exact (flat_lit s).1
        · exact h1 a ha
      · simp [Routing.partsRe, Routing.vars, (flat_lit s).2, h2]
    | var name c =>
      simp only [Routing.vars, List.mem_cons] at h
      have ⟨h1, h2⟩ := ih (n + 1) fun v hv => h v (Or.inr hv)
      refine ⟨?_, ?_⟩
      · intro a ha
        simp only [Routing.partsRe, List.mem_cons] at ha
        rcases ha with rfl | ha
        · exact h (name, c) (Or.inl rfl)
        · exact h1 a ha
      · simp [Routing.partsRe, Routing.vars, degree, h2]

theorem flat_bound (b : Routing.Bound) (h : ∀ v ∈ b.vars, flat v.2.re = true) :
    flat b.re = true ∧ degree b.re = (b.vars.map fun v => degree v.2.re).sum := by
  have ht : flat (Routing.tailRe b) = true ∧ degree (Routing.tailRe b) = 0 := by
    unfold Routing.tailRe
    split
    · exact ⟨rfl, rfl⟩
    · exact ⟨rfl, rfl⟩
  have hd := flat_parts 0 b.domain fun v hv => h v (by simp [Routing.Bound.vars, hv])
  have hp := flat_parts (Routing.vars b.domain).length b.path fun v hv => h v (by simp [Routing.Bound.vars, hv])
  have hs := flat_seqs (Routing.partsRe 0 b.domain ++ lit s%"|" :: Routing.partsRe (Routing.vars b.domain).length b.path)
    (Routing.tailRe b) (by
      intro a ha
      simp only [List.mem_append, List.mem_cons] at ha
      rcases ha with ha | rfl | ha
      · exact hd.1 a ha
      · exact (flat_lit _).1
      · exact hp.1 a ha) ht.1
  refine ⟨hs.1, ?_⟩
  unfold Routing.Bound.re
  rw [hs.2, ht.2]
  simp [Routing.Bound.vars, hd.2, hp.2, (flat_lit _).2]

/-- C147.  Where the patterns of the converters of a route repeat only classes of characters, the attempts to match a path grow at
most with the power that is the number of repetitions in the variables of the route. -/
theorem C147_route (b : Routing.Bound) (h : ∀ v ∈ b.vars, flat v.2.re = true) :
    ∃ c, ∀ path, attempts b.re none path ≤ c * (path.length + 1) ^ (b.vars.map fun v => degree v.2.re).sum := by
  obtain ⟨h1, h2⟩ := flat_bound b h
  obtain ⟨c, hc⟩ := flat_deg b.re h1
  exact ⟨c, fun path => by rw [← h2]; exact attempts_le hc none path⟩

theorem flat_optN (p : Char → Bool) (k : Nat) : flat (Routing.optN (.cls p) k) = true ∧ degree (Routing.optN (.cls p) k) = 0 := by
  induction k with
  | zero => exact ⟨rfl, rfl⟩
  | succ k ih => simp [Routing.optN, flat, degree, ih]

theorem flat_rep (p : Char → Bool) (m : Nat) : ∀ n : Option Nat, flat (Routing.rep (.cls p) m n) = true ∧
    degree (Routing.rep (.cls p) m n) = if n.isSome then 0 else 1 := by
  induction m with
  | zero =>
    intro n
    cases n with
    | none => exact ⟨rfl, rfl⟩
    | some k => simpa [Routing.rep] using flat_optN p k
  | succ m ih =>
    intro n
    have := ih (n.map (· - 1))
    simp only [Routing.rep, flat, degree, this]
    cases n <;> simp

theorem flat_alts (l : List Str) : flat (Routing.anyRe l) = true ∧ degree (Routing.anyRe l) = 0 := by
  cases l with
  | nil => exact ⟨rfl, rfl⟩
  | cons a as =>
    simp only [Routing.anyRe]
    induction as generalizing a with
    | nil => exact flat_lit a
    | cons b bs ih =>
      have h1 := flat_lit a
      have h2 := ih b
      simp only [List.map_cons] at h2 ⊢
      simp only [alts, flat, degree, h1]
      simpa using h2

/-- C147.  The converters of the library repeat only classes of characters: `float` two, `path`, `int` and `string` without a
greatest length one, the others none. -/
theorem C147_converters (dec : Char → Option Nat) (F : Routing.FloatLib) (lo hi : Option Int) (flo fhi : Option Str) (fixed m k : Nat)
    (items : List Str) :
    (flat (Routing.stringConv m none).re = true ∧ degree (Routing.stringConv m none).re = 1) ∧
    (flat (Routing.stringConv m (some k)).re = true ∧ degree (Routing.stringConv m (some k)).re = 0) ∧
    (flat (Routing.anyConv items).re = true ∧ degree (Routing.anyConv items).re = 0) ∧
    (flat Routing.pathConv.re = true ∧ degree Routing.pathConv.re = 1) ∧
    (flat (Routing.intConv dec fixed lo hi).re = true ∧ degree (Routing.intConv dec fixed lo hi).re = 1) ∧
    (flat (Routing.floatConv F dec flo fhi).re = true ∧ degree (Routing.floatConv F dec flo fhi).re = 2) ∧
    (flat Routing.uuidConv.re = true ∧ degree Routing.uuidConv.re = 0) := by
  refine ⟨flat_rep _ m none, flat_rep _ m (some k), flat_alts items, ⟨rfl, rfl⟩, ⟨rfl, rfl⟩, ⟨rfl, rfl⟩, ⟨rfl, rfl⟩⟩

/-- C147.  For a map of such routes, the attempts to match a path grow at most with the greatest of these powers. -/
theorem C147_map (routes : List Routing.Bound) (d : Nat) (h : ∀ b ∈ routes, ∀ v ∈ b.vars, flat v.2.re = true)
    (hd : ∀ b ∈ routes, (b.vars.map fun v => degree v.2.re).sum ≤ d) :
    ∃ c, ∀ path, routesCost routes path ≤ c * (path.length + 1) ^ d := by
  induction routes with
  | nil => exact ⟨0, fun path => by simp [routesCost]⟩
  | cons b bs ih =>
    obtain ⟨c, hc⟩ := ih (fun x hx => h x (List.mem_cons_of_mem _ hx)) (fun x hx => hd x (List.mem_cons_of_mem _ hx))
    obtain ⟨c', hc'⟩ := C147_route b (h b (by simp))
    refine ⟨c' + c, fun path => ?_⟩
    have h1 := hc path
    have h2 := hc' path
    have h3 : c' * (path.length + 1) ^ (b.vars.map fun v => degree v.2.re).sum ≤ c' * (path.length + 1) ^ d :=
      Nat.mul_le_mul_left _ (Nat.pow_le_pow_right (by omega) (hd b (by simp)))
    have e : routesCost (b :: bs) path = (if b.route.buildOnly then 0 else attempts b.re none path) + routesCost bs path := by
      simp [routesCost]
    rw [e, Nat.add_mul]
    split <;> omega

/-- `/<path:p>/<int:n>`: the square of the length. -/
example : ∃ c, ∀ path, attempts (Routing.Bound.mk 0 { rule := s%"/<path:p>/<int:n>", endpoint := s%"e" } true []
    [.text s%"/", .var s%"p" Routing.pathConv, .text s%"/", .var s%"n" (Routing.intConv (fun c => if c.isDigit then some (c.toNat - 48) else none) 0 none none)]).re
    none path ≤ c * (path.length + 1) ^ 2 := by
  refine C147_route _ ?_
  intro v hv
  simp [Routing.Bound.vars, Routing.vars] at hv
  rcases hv with rfl | rfl <;> rfl

/-! ### what is counted -/

/-- C147.  The search that is counted finds a match exactly where the matcher of the model does. -/
theorem C147_search {α : Type} (r : Re α) (prev : Option α) (s : List α) : (search r done prev s).2 = (first r prev s).isSome :=
  search_first r prev s

end Verif.Props.MatchCostP
