import Verif.Model.Date
import Verif.Spec.Calendar
import Verif.PyLemmas
import Verif.Props.Utils
/-! Property theorems C59, C76 and C77: dates. -/
namespace Verif.Props.DateP
open Verif Verif.Date Verif.Spec.Calendar

/-! ### the calendar -/

theorem isLeap_iff (y : Nat) : isLeap y = true ↔ Leap y := by
  simp [isLeap, Leap]

theorem daysBeforeYear_step (y : Nat) : daysBeforeYear (y + 2) = daysBeforeYear (y + 1) + yearLength (y + 1) := by
  unfold daysBeforeYear yearLength
  by_cases h : Leap (y + 1)
  · rw [if_pos h]; unfold Leap at h; simp only [Nat.add_sub_cancel, show y + 2 - 1 = y + 1 from rfl]
    have h1 : (y + 1) / 4 = y / 4 + 1 := by omega
    have h2 : (y + 1) / 100 = y / 100 + (if (y + 1) % 100 = 0 then 1 else 0) := by split <;> omega
    have h3 : (y + 1) / 400 = y / 400 + (if (y + 1) % 400 = 0 then 1 else 0) := by split <;> omega
    rw [h1, h2, h3]
    by_cases h4 : (y + 1) % 100 = 0
    · rw [if_pos h4, if_pos (by omega)]; omega
    · rw [if_neg h4, if_neg (by omega)]; omega
  · rw [if_neg h]; unfold Leap at h; simp only [Nat.add_sub_cancel, show y + 2 - 1 = y + 1 from rfl]
    have h1 : (y + 1) / 4 = y / 4 + (if (y + 1) % 4 = 0 then 1 else 0) := by split <;> omega
    have h2 : (y + 1) / 100 = y / 100 + (if (y + 1) % 100 = 0 then 1 else 0) := by split <;> omega
    have h3 : (y + 1) / 400 = y / 400 := by omega
    rw [h1, h2, h3]
    by_cases h4 : (y + 1) % 100 = 0
    · rw [if_pos h4, if_pos (by omega)]; omega
    · rw [if_neg h4, if_neg (by omega)]; omega

theorem daysBeforeYear_eq (y : Nat) : daysBeforeYear y = daysOfYears y := by
  induction y with
  | zero => rfl
  | succ y ih =>
    cases y with
    | zero => rfl
    | succ y =>
      rw [daysBeforeYear_step, ih]
      simp [daysOfYears]

theorem monthLength_eq (y m : Nat) (h : 1 ≤ m ∧ m ≤ 12) : daysInMonth (isLeap y) m = monthLength y m := by
  have key : ∀ m, 1 ≤ m ∧ m ≤ 12 → ∀ l : Bool, daysInMonth l m =
      if m = 2 then (if l then 29 else 28) else if m = 4 ∨ m = 6 ∨ m = 9 ∨ m = 11 then 30 else 31 := by
    intro m hm
    have : m ∈ [1, 2, 3, 4, 5, 6, 7, 8, 9, 10, 11, 12] := by simp; omega
    clear hm
    revert m
    decide
  rw [key m h, monthLength]
  by_cases hl : Leap y
  · rw [(isLeap_iff y).2 hl]; simp [hl]
  · have : isLeap y = false := by rw [← Bool.not_eq_true, isLeap_iff]; exact hl
    rw [this]; simp [hl]

theorem daysBeforeMonth_eq (y m : Nat) (h : 1 ≤ m ∧ m ≤ 12) : daysBeforeMonth (isLeap y) m = daysOfMonths y m := by
  have hstep : ∀ k, 1 ≤ k → k ≤ 11 → ∀ l : Bool, daysBeforeMonth l (k + 1) = daysBeforeMonth l k + daysInMonth l k := by
    intro k h1 h2
    have : k ∈ [1, 2, 3, 4, 5, 6, 7, 8, 9, 10, 11] := by simp; omega
    clear h1 h2
    revert k
    decide
  induction m with
  | zero => omega
  | succ m ih =>
    cases m with
    | zero => cases isLeap y <;> rfl
    | succ m =>
      rw [hstep (m + 1) (by omega) (by omega), ih (by omega), monthLength_eq y _ (by omega)]
      simp [daysOfMonths]

theorem ymd2ord_eq (y m d : Nat) (h : 1 ≤ m ∧ m ≤ 12) : ymd2ord y m d = dayNumber y m d := by
  unfold ymd2ord dayNumber
  rw [daysBeforeYear_eq, daysBeforeMonth_eq y m h]

theorem monthDay_left_check : ∀ l : Bool, (List.range 13).all (fun m => (List.range 32).all (fun d =>
    !(decide (1 ≤ m ∧ 1 ≤ d ∧ d ≤ daysInMonth l m)) ||
    (decide (monthDay l (daysBeforeMonth l m + d - 1) = (m, d)) &&
     decide (daysBeforeMonth l m + d - 1 < 365 + l.toNat) &&
     decide (daysBeforeMonth l m + d - 1 ≠ 365 ∨ (m = 12 ∧ d = 31))))) = true := by
  decide +kernel

theorem monthDay_left (l : Bool) (m : Nat) (hm : m < 13) (d : Nat) (hd : d < 32)
    (h : 1 ≤ m ∧ 1 ≤ d ∧ d ≤ daysInMonth l m) :
    monthDay l (daysBeforeMonth l m + d - 1) = (m, d) ∧
    daysBeforeMonth l m + d - 1 < 365 + l.toNat ∧
    (daysBeforeMonth l m + d - 1 ≠ 365 ∨ (m = 12 ∧ d = 31)) := by
  have h1 := List.all_eq_true.1 (monthDay_left_check l) m (List.mem_range.2 hm)
  have h2 := List.all_eq_true.1 h1 d (List.mem_range.2 hd)
  simp only [decide_eq_true h, Bool.not_true, Bool.false_or, Bool.and_eq_true, decide_eq_true_eq] at h2
  exact ⟨h2.1.1, h2.1.2, h2.2⟩

theorem monthDay_right : ∀ l : Bool, ∀ n < 366, (n < 365 ∨ l = true) →
    1 ≤ (monthDay l n).1 ∧ (monthDay l n).1 ≤ 12 ∧ 1 ≤ (monthDay l n).2 ∧
    (monthDay l n).2 ≤ daysInMonth l (monthDay l n).1 ∧
    daysBeforeMonth l (monthDay l n).1 + (monthDay l n).2 = n + 1 := by
  decide +kernel

theorem daysInMonth_le : ∀ l : Bool, ∀ m < 13, daysInMonth l m < 32 := by decide

theorem daysBeforeYear_val (y a b c e : Nat) (h : y = 400 * a + 100 * b + 4 * c + e + 1) (hb : b < 4) (hc : c < 25)
    (he : e < 4) : daysBeforeYear y = 146097 * a + 36524 * b + 1461 * c + 365 * e ∧
      (Leap y ↔ e = 3 ∧ (c ≠ 24 ∨ b = 3)) := by
  have h1 : (y - 1) / 4 = 100 * a + 25 * b + c := by omega
  have h2 : (y - 1) / 100 = 4 * a + b := by omega
  have h3 : (y - 1) / 400 = a := by omega
  refine ⟨by unfold daysBeforeYear; rw [h1, h2, h3]; omega, ?_⟩
  unfold Leap
  omega

/-- The position of a year in the cycles of the calendar. -/
theorem year_split (y : Nat) (hy : 1 ≤ y) : ∃ a b c e, y = 400 * a + 100 * b + 4 * c + e + 1 ∧ b < 4 ∧ c < 25 ∧
    e < 4 ∧ daysBeforeYear y = 146097 * a + 36524 * b + 1461 * c + 365 * e ∧
    (Leap y ↔ e = 3 ∧ (c ≠ 24 ∨ b = 3)) := by
  have hk : y = 400 * ((y - 1) / 400) + 100 * ((y - 1) % 400 / 100) + 4 * ((y - 1) % 100 / 4) + (y - 1) % 4 + 1 := by
    omega
  exact ⟨(y - 1) / 400, (y - 1) % 400 / 100, (y - 1) % 100 / 4, (y - 1) % 4, hk, by omega, by omega, by omega,
    daysBeforeYear_val y _ _ _ _ hk (by omega) (by omega) (by omega)⟩

theorem isLeap_eq (y : Nat) (p : Prop) [Decidable p] (h : Leap y ↔ p) : isLeap y = decide p := by
  by_cases hp : p
  · rw [(isLeap_iff y).2 (h.2 hp)]; simp [hp]
  · have : isLeap y = false := by rw [← Bool.not_eq_true, isLeap_iff, h]; exact hp
    rw [this]; simp [hp]

theorem ord2ymd_ymd2ord (y m d : Nat) (hy : 1 ≤ y) (hm : 1 ≤ m ∧ m ≤ 12) (hd : 1 ≤ d ∧ d ≤ monthLength y m) :
    ord2ymd (ymd2ord y m d) = (y, m, d) := by
  obtain ⟨a, b, c, e, h1, hb, hc, he, h2, h3⟩ := year_split y hy
  have hl := isLeap_eq y _ h3
  rw [← monthLength_eq y m hm] at hd
  have hd32 := daysInMonth_le (isLeap y) m (by omega)
  obtain ⟨k1, k2, k3⟩ := monthDay_left (isLeap y) m (by omega) d (by omega) ⟨hm.1, hd.1, hd.2⟩
  generalize hn : daysBeforeMonth (isLeap y) m + d - 1 = n at k1 k2 k3
  have hord : ymd2ord y m d - 1 = 146097 * a + 36524 * b + 1461 * c + 365 * e + n := by
    unfold ymd2ord; omega
  unfold ord2ymd
  rw [hord]
  have hle : isLeap y = true ↔ e = 3 ∧ (c ≠ 24 ∨ b = 3) := (isLeap_iff y).trans h3
  by_cases h365 : n = 365
  · obtain ⟨rfl, rfl⟩ := k3.resolve_left (fun h => h h365)
    have hlp : isLeap y = true := by
      cases h : isLeap y with
      | true => rfl
      | false => rw [h] at k2; simp at k2; omega
    obtain ⟨rfl, hcb⟩ := hle.1 hlp
    subst h365
    have e1 : (146097 * a + 36524 * b + 1461 * c + 365 * 3 + 365) / 146097 = a := by omega
    have e2 : (146097 * a + 36524 * b + 1461 * c + 365 * 3 + 365) % 146097 = 36524 * b + 1461 * c + 1460 := by omega
    simp only [e1, e2]
    by_cases hc24 : c = 24
    · have hb3 : b = 3 := by omega
      subst hc24 hb3
      simp
      omega
    · have e3 : (36524 * b + 1461 * c + 1460) / 36524 = b := by omega
      have e4 : (36524 * b + 1461 * c + 1460) % 36524 = 1461 * c + 1460 := by omega
      have e5 : (1461 * c + 1460) / 1461 = c := by omega
      have e6 : (1461 * c + 1460) % 1461 = 1460 := by omega
      simp only [e3, e4, e5, e6]
      simp
      omega
  · have hn365 : n < 365 := by
      cases h : isLeap y <;> rw [h] at k2 <;> simp at k2 <;> omega
    have e1 : (146097 * a + 36524 * b + 1461 * c + 365 * e + n) / 146097 = a := by omega
    have e2 : (146097 * a + 36524 * b + 1461 * c + 365 * e + n) % 146097 = 36524 * b + 1461 * c + 365 * e + n := by omega
    have e3 : (36524 * b + 1461 * c + 365 * e + n) / 36524 = b := by omega
    have e4 : (36524 * b + 1461 * c + 365 * e + n) % 36524 = 1461 * c + 365 * e + n := by omega
    have e5 : (1461 * c + 365 * e + n) / 1461 = c := by omega
    have e6 : (1461 * c + 365 * e + n) % 1461 = 365 * e + n := by omega
    have e7 : (365 * e + n) / 365 = e := by omega
    have e8 : (365 * e + n) % 365 = n := by omega
    simp only [e1, e2, e3, e4, e5, e6, e7, e8]
    rw [if_neg (by omega), ← hl, k1]
    simp
    omega

theorem ymd2ord_ord2ymd (n : Nat) (hn : 1 ≤ n) :
    let r := ord2ymd n
    1 ≤ r.1 ∧ 1 ≤ r.2.1 ∧ r.2.1 ≤ 12 ∧ 1 ≤ r.2.2 ∧ r.2.2 ≤ monthLength r.1 r.2.1 ∧ ymd2ord r.1 r.2.1 r.2.2 = n := by
  obtain ⟨a, ha⟩ : ∃ a, a = (n - 1) / 146097 := ⟨_, rfl⟩
  obtain ⟨p, hp⟩ : ∃ p, p = (n - 1) % 146097 := ⟨_, rfl⟩
  obtain ⟨b, hb⟩ : ∃ b, b = p / 36524 := ⟨_, rfl⟩
  obtain ⟨q, hq⟩ : ∃ q, q = p % 36524 := ⟨_, rfl⟩
  obtain ⟨c, hc⟩ : ∃ c, c = q / 1461 := ⟨_, rfl⟩
  obtain ⟨r, hr⟩ : ∃ r, r = q % 1461 := ⟨_, rfl⟩
  obtain ⟨e, he⟩ : ∃ e, e = r / 365 := ⟨_, rfl⟩
  obtain ⟨s, hs⟩ : ∃ s, s = r % 365 := ⟨_, rfl⟩
  have ho : ord2ymd n = if e = 4 ∨ b = 4 then (a * 400 + 1 + b * 100 + c * 4 + e - 1, 12, 31)
      else (a * 400 + 1 + b * 100 + c * 4 + e,
        (monthDay (decide (e = 3 ∧ (c ≠ 24 ∨ b = 3))) s).1, (monthDay (decide (e = 3 ∧ (c ≠ 24 ∨ b = 3))) s).2) := by
    subst hs he hr hc hq hb hp ha
    rfl
  rw [ho]
  by_cases hx : e = 4 ∨ b = 4
  · rw [if_pos hx]
    obtain ⟨y, hy⟩ : ∃ y, y = a * 400 + 1 + b * 100 + c * 4 + e - 1 := ⟨_, rfl⟩
    simp only [← hy]
    have hval : daysBeforeYear y + 366 = n ∧ Leap y := by
      by_cases hb4 : b = 4
      · have hc0 : c = 0 := by omega
        have he0 : e = 0 := by omega
        obtain ⟨h1, h2⟩ := daysBeforeYear_val y a 3 24 3 (by omega) (by omega) (by omega) (by omega)
        exact ⟨by omega, h2.2 (by omega)⟩
      · have he4 : e = 4 := by omega
        obtain ⟨h1, h2⟩ := daysBeforeYear_val y a b c 3 (by omega) (by omega) (by omega) (by omega)
        exact ⟨by omega, h2.2 (by omega)⟩
    obtain ⟨hday, hleap⟩ := hval
    refine ⟨by omega, by omega, by omega, by omega, by simp [monthLength], ?_⟩
    unfold ymd2ord
    rw [(isLeap_iff y).2 hleap]
    have : daysBeforeMonth true 12 = 335 := rfl
    rw [this]
    omega
  · rw [if_neg hx]
    obtain ⟨y, hy⟩ : ∃ y, y = a * 400 + 1 + b * 100 + c * 4 + e := ⟨_, rfl⟩
    simp only [← hy]
    obtain ⟨hdy, hleap⟩ := daysBeforeYear_val y a b c e (by omega) (by omega) (by omega) (by omega)
    rw [← isLeap_eq y _ hleap]
    obtain ⟨k1, k2, k3, k4, k5⟩ := monthDay_right (isLeap y) s (by omega) (.inl (by omega))
    refine ⟨by omega, k1, k2, k3, ?_, ?_⟩
    · rw [← monthLength_eq y _ ⟨k1, k2⟩]; exact k4
    · unfold ymd2ord
      omega

/-! ### dates and seconds -/

theorem ord_bound (t : DateTime) (h : Valid t) :
    1 ≤ ymd2ord t.year t.month t.day ∧ ymd2ord t.year t.month t.day ≤ 3652059 := by
  obtain ⟨h1, h2, h3, h4, h5, h6, h7, h8, h9⟩ := h
  obtain ⟨a, b, c, e, k1, hb, hc, he, k2, k3⟩ := year_split t.year h1
  rw [← monthLength_eq _ _ ⟨h3, h4⟩] at h6
  have hd := daysInMonth_le (isLeap t.year) t.month (by omega)
  obtain ⟨_, m2, _⟩ := monthDay_left (isLeap t.year) t.month (by omega) t.day (by omega) ⟨h3, h5, h6⟩
  refine ⟨by unfold ymd2ord; omega, ?_⟩
  unfold ymd2ord
  cases hl : isLeap t.year with
  | true =>
    have := k3.1 ((isLeap_iff _).1 hl)
    rw [hl] at m2
    simp only [Bool.toNat_true] at m2
    omega
  | false =>
    rw [hl] at m2
    simp only [Bool.toNat_false] at m2
    omega

theorem ofTotal_total (t : DateTime) (h : Valid t) : ofTotal t.total = some t := by
  have ho := ord_bound t h
  obtain ⟨h1, h2, h3, h4, h5, h6, h7, h8, h9⟩ := h
  have hi := ord2ymd_ymd2ord t.year t.month t.day h1 ⟨h3, h4⟩ ⟨h5, h6⟩
  obtain ⟨o, hoo⟩ : ∃ o, o = ymd2ord t.year t.month t.day := ⟨_, rfl⟩
  rw [← hoo] at ho hi
  have hd : t.total / 86400 = (o : Int) := by
    unfold DateTime.total; rw [← hoo]; omega
  have hm : (t.total % 86400).toNat = t.hour * 3600 + t.minute * 60 + t.second := by
    unfold DateTime.total; rw [← hoo]; omega
  unfold ofTotal
  simp only [hd, hm]
  rw [if_pos (by omega), Int.toNat_natCast, hi]
  have e1 : (t.hour * 3600 + t.minute * 60 + t.second) / 3600 = t.hour := by omega
  have e2 : (t.hour * 3600 + t.minute * 60 + t.second) % 3600 / 60 = t.minute := by omega
  have e3 : (t.hour * 3600 + t.minute * 60 + t.second) % 60 = t.second := by omega
  simp only [e1, e2, e3]

theorem year_bound (y m d : Nat) (hy : 1 ≤ y) (hm : 1 ≤ m ∧ m ≤ 12) (hd : 1 ≤ d ∧ d ≤ monthLength y m)
    (h : ymd2ord y m d ≤ 3652059) : y ≤ 9999 := by
  obtain ⟨a, b, c, e, k1, hb, hc, he, k2, k3⟩ := year_split y hy
  unfold ymd2ord at h
  omega

theorem total_ofTotal (n : Int) (t : DateTime) (h : ofTotal n = some t) : Valid t ∧ t.total = n := by
  unfold ofTotal at h
  simp only at h
  split at h
  · rename_i hr
    obtain ⟨k1, k2, k3, k4, k5, k6⟩ := ymd2ord_ord2ymd (n / 86400).toNat (by omega)
    rw [Option.some.injEq] at h
    subst h
    refine ⟨⟨k1, year_bound _ _ _ k1 ⟨k2, k3⟩ ⟨k4, k5⟩ (by rw [k6]; omega), k2, k3, k4, k5, ?_, ?_, ?_⟩, ?_⟩
    · simp only; omega
    · simp only; omega
    · simp only; omega
    · simp only [DateTime.total, k6]
      omega
  · cases h

theorem mk_valid (t : DateTime) (h : Valid t) :
    mkDateTime t.year t.month t.day t.hour t.minute t.second = some t := by
  obtain ⟨h1, h2, h3, h4, h5, h6, h7, h8, h9⟩ := h
  unfold mkDateTime
  rw [if_pos]
  · simp
  · rw [Int.toNat_natCast, Int.toNat_natCast, monthLength_eq _ _ ⟨h3, h4⟩]
    omega

theorem epoch_total (t : DateTime) (h : Valid t) : epoch t = t.total - 719163 * 86400 := by
  obtain ⟨h1, h2, h3, h4, h5, h6, h7, h8, h9⟩ := h
  have e : dayNumber 1970 1 1 = 719163 := by
    rw [← ymd2ord_eq _ _ _ (by omega)]; decide
  unfold epoch DateTime.total
  rw [e, ymd2ord_eq _ _ _ ⟨h3, h4⟩]
  omega

/-! ### words -/

theorem wordsGo_word (t r cur : Str) (ht : ∀ c ∈ t, Py.isSpace c = false) (hne : cur ++ t ≠ []) :
    Utils.wordsGo cur (t ++ ' ' :: r) = (cur ++ t) :: Utils.wordsGo [] r := by
  induction t generalizing cur with
  | nil =>
    rw [List.nil_append, Utils.wordsGo, if_pos (by decide), if_neg (by simpa using hne), List.append_nil]
  | cons c t ih =>
    rw [List.cons_append, Utils.wordsGo, ht c (.head _), if_neg (by decide),
      ih _ (fun x hx => ht x (.tail _ hx)) (by simp)]
    simp

/-- A word of a date. -/
def Word (w : Str) : Prop := w ≠ [] ∧ ∀ c ∈ w, Py.isSpace c = false

theorem words_join (ws : List Str) (h : ∀ w ∈ ws, Word w) : Utils.words (Py.join s%" " ws) = ws := by
  unfold Utils.words
  induction ws with
  | nil => rfl
  | cons w ws ih =>
    have hw := h w (.head _)
    cases ws with
    | nil =>
      show Utils.wordsGo [] w = [w]
      rw [Utils.wordsGo_plain w [] hw.2, List.nil_append, if_neg hw.1]
    | cons v vs =>
      show Utils.wordsGo [] (w ++ s%" " ++ Py.join s%" " (v :: vs)) = _
      rw [List.append_assoc]
      show Utils.wordsGo [] (w ++ ' ' :: Py.join s%" " (v :: vs)) = _
      rw [wordsGo_word w _ [] hw.2 (by simpa using hw.1), ih fun x hx => h x (.tail _ hx)]
      rfl

theorem join_last (ws : List Str) (h : ∀ w ∈ ws, Word w) (c : Char)
    (hc : (Py.join s%" " ws).getLast? = some c) : Py.isSpace c = false := by
  induction ws with
  | nil => cases hc
  | cons w ws ih =>
    cases ws with
    | nil => exact (h w (.head _)).2 c (List.mem_of_getLast? hc)
    | cons v vs =>
      have hv := h v (.tail _ (.head _))
      have hne : Py.join s%" " (v :: vs) ≠ [] := by
        cases vs with
        | nil => exact hv.1
        | cons x xs => simp [Py.join]
      apply ih (fun x hx => h x (.tail _ hx))
      rw [← hc]
      show _ = (w ++ s%" " ++ Py.join s%" " (v :: vs)).getLast?
      rw [List.getLast?_append, List.getLast?_eq_some_getLast hne]
      rfl

theorem strip_join (ws : List Str) (h : ∀ w ∈ ws, Word w) : Py.strip (Py.join s%" " ws) = Py.join s%" " ws := by
  apply Py.stripP_id
  · intro c hc
    cases ws with
    | nil => cases hc
    | cons w ws =>
      have hw := h w (.head _)
      have : (Py.join s%" " (w :: ws)).head? = w.head? := by
        obtain ⟨h1, _⟩ := hw
        cases w with
        | nil => exact absurd rfl h1
        | cons a w => cases ws <;> rfl
      rw [this] at hc
      exact hw.2 c (List.mem_of_head? hc)
  · exact fun c hc => join_last ws h c hc

/-! ### numbers in dates -/

theorem pad2_check : ∀ n < 100, Py.intOf (pad2 n) = .ok (n : Int) ∧ pad2 n ≠ [] ∧
    (pad2 n).all (fun c => 48 ≤ c.toNat && c.toNat ≤ 57) = true := by
  decide +kernel

/-- A non-empty string of digits. -/
def Digits (s : Str) : Prop := s ≠ [] ∧ ∀ c ∈ s, Py.IsDig c

theorem pad2_digits (n : Nat) (h : n < 100) : Digits (pad2 n) := by
  obtain ⟨_, h1, h2⟩ := pad2_check n h
  refine ⟨h1, fun c hc => ?_⟩
  have := List.all_eq_true.1 h2 c hc
  simpa [Py.IsDig] using this

theorem natStr_Digits (n : Nat) : Digits (Py.natStr n) := ⟨Py.natStr_ne_nil n, Py.natStr_digits n⟩

theorem digits_word (s : Str) (h : Digits s) : Word s := ⟨h.1, fun c hc => Py.isDig_not_space c (h.2 c hc)⟩

theorem digits_not_mem (s : Str) (h : Digits s) (c : Char) (hc : c.toNat < 48 ∨ 57 < c.toNat) : c ∉ s := by
  intro hm
  have := h.2 c hm
  unfold Py.IsDig at this
  omega

theorem dropComma_id (s : Str) (h : s ≠ []) (hc : ',' ∉ s) : dropComma s = .ok s := by
  unfold dropComma
  cases hl : s.getLast? with
  | none => exact absurd (List.getLast?_eq_none_iff.1 hl) h
  | some c =>
    simp only
    rw [if_neg]
    rintro rfl
    exact hc (List.mem_of_getLast? hl)

theorem firstDigit_digits (s : Str) (h : Digits s) : firstDigit s = .ok true := by
  obtain ⟨h1, h2⟩ := h
  cases s with
  | nil => exact absurd rfl h1
  | cons c s =>
    have := h2 c (.head _)
    unfold Py.IsDig at this
    simp [firstDigit, this.1, this.2]

theorem colonInside_digits (s : Str) (h : Digits s) : colonInside s = false := by
  have : s.contains ':' = false := by
    rw [← Bool.not_eq_true, List.contains_iff_mem]
    exact digits_not_mem s h ':' (by decide)
  simp only [colonInside, this, Bool.false_and]

/-- A time of the day as written. -/
def clock (h m s : Nat) : Str := pad2 h ++ s%":" ++ pad2 m ++ s%":" ++ pad2 s

theorem clock_split (h m s : Nat) (hh : h < 100) (hm : m < 100) (hs : s < 100) :
    splitTime (clock h m s) = some (pad2 h, pad2 m, pad2 s) := by
  have e : Py.splitOn ':' (clock h m s) = [pad2 h, pad2 m, pad2 s] := by
    have := Py.splitOn_join ':' [pad2 h, pad2 m, pad2 s] (by simp) (by
      intro p hp
      simp only [List.mem_cons, List.not_mem_nil, or_false] at hp
      rcases hp with rfl | rfl | rfl
      · exact digits_not_mem _ (pad2_digits _ hh) _ (by decide)
      · exact digits_not_mem _ (pad2_digits _ hm) _ (by decide)
      · exact digits_not_mem _ (pad2_digits _ hs) _ (by decide))
    rw [← this]
    simp [clock, Py.join]
  unfold splitTime
  rw [e]

theorem clock_mem (h m s : Nat) (hh : h < 100) (hm : m < 100) (hs : s < 100) (c : Char)
    (hc : c ∈ clock h m s) : Py.IsDig c ∨ c = ':' := by
  unfold clock at hc
  simp only [List.mem_append, List.mem_singleton] at hc
  rcases hc with (((h1 | h1) | h1) | h1) | h1
  · exact .inl ((pad2_digits _ hh).2 c h1)
  · exact .inr h1
  · exact .inl ((pad2_digits _ hm).2 c h1)
  · exact .inr h1
  · exact .inl ((pad2_digits _ hs).2 c h1)

theorem clock_word (h m s : Nat) (hh : h < 100) (hm : m < 100) (hs : s < 100) : Word (clock h m s) := by
  refine ⟨by simp [clock], fun c hc => ?_⟩
  rcases clock_mem h m s hh hm hs c hc with h1 | rfl
  · exact Py.isDig_not_space c h1
  · decide

theorem clock_no_comma (h m s : Nat) (hh : h < 100) (hm : m < 100) (hs : s < 100) : ',' ∉ clock h m s := by
  intro hc
  rcases clock_mem h m s hh hm hs _ hc with h1 | h1
  · revert h1; unfold Py.IsDig; decide
  · cases h1

theorem month_check : ∀ m < 13, 1 ≤ m → monthNumber (lower (monthNames.getD (m - 1) [])) = some m ∧
    (monthNames.getD (m - 1) []) ≠ [] ∧ (monthNames.getD (m - 1) []).all (fun c => !Py.isSpace c && c != '-') = true := by
  decide +kernel

theorem day_check : ∀ d < 7, (dayNames.getD d []).all (fun c => !Py.isSpace c) = true ∧
    lower (dayNames.getD d []) ∈ days ∧ dayNames.getD d [] ≠ [] := by
  decide +kernel

/-- The adjustment of years written with at most two digits. -/
def adjust (y : Nat) : Nat := if y < 100 then (if y > 68 then y + 1900 else y + 2000) else y

theorem numbers_eq (yy dd : Str) (y d mo h m s : Nat) (tz : Str) (hy : Py.intOf yy = .ok (y : Int))
    (hd : Py.intOf dd = .ok (d : Int)) (hh : h < 100) (hm : m < 100) (hs : s < 100) :
    numbers yy mo dd (pad2 h) (pad2 m) (pad2 s) tz = some ⟨adjust y, mo, d, h, m, s, zoneSeconds tz⟩ := by
  unfold numbers adjust
  rw [hy, hd, (pad2_check h hh).1, (pad2_check m hm).1, (pad2_check s hs).1]
  simp only [Option.some.injEq, Parsed.mk.injEq, and_true]
  split <;> split <;> (try split) <;> (try split) <;> omega

/-- Day, month, year, time and zone in this order. -/
theorem fields_std (dd yy tz : Str) (y d mo h m s : Nat) (hmo : 1 ≤ mo ∧ mo ≤ 12)
    (hy : Py.intOf yy = .ok (y : Int)) (hy' : Digits yy) (hd : Py.intOf dd = .ok (d : Int)) (hd' : Digits dd)
    (hh : h < 100) (hm : m < 100) (hs : s < 100) :
    fields dd (monthNames.getD (mo - 1) []) yy (clock h m s) tz =
      .ok (some ⟨adjust y, mo, d, h, m, s, zoneSeconds tz⟩) := by
  obtain ⟨m1, m2, _⟩ := month_check mo (by omega) hmo.1
  unfold fields
  rw [if_neg (by simp only [hd'.1, m2, hy'.1, or_self, not_false_eq_true])]
  unfold dayMonth
  rw [m1]
  simp only
  rw [dropComma_id dd hd'.1 (digits_not_mem _ hd' _ (by decide))]
  simp only [colonInside_digits yy hy', Bool.false_eq_true, if_false]
  rw [dropComma_id yy hy'.1 (digits_not_mem _ hy' _ (by decide))]
  simp only
  rw [if_neg hy'.1]
  unfold finish
  rw [firstDigit_digits yy hy']
  simp only [if_true]
  rw [dropComma_id _ (clock_word h m s hh hm hs).1 (clock_no_comma h m s hh hm hs)]
  simp only
  rw [clock_split h m s hh hm hs]
  simp only
  rw [numbers_eq yy dd y d mo h m s tz hy hd hh hm hs]

/-- From the parts to the date. -/
theorem parse_of_parsed (ws : List Str) (h : ∀ w ∈ ws, Word w) (hne : ws ≠ []) (t : DateTime) (z : Int)
    (ht : Valid t) (hy : 100 ≤ t.year)
    (hp : parsedateTz (Py.join s%" " ws) = .ok (some ⟨t.year, t.month, t.day, t.hour, t.minute, t.second, z⟩)) :
    parseDate (Py.join s%" " ws) = .ok (sub t z) := by
  have hn : Py.join s%" " ws ≠ [] := by
    intro e
    have := words_join ws h
    rw [e] at this
    exact hne this.symm
  unfold parseDate
  rw [if_neg hn, strip_join ws h, hp]
  simp only
  rw [if_neg (by omega), if_neg (by omega), mk_valid t ht]

theorem sub_zero (t : DateTime) (h : Valid t) : sub t 0 = some t := by
  unfold sub
  rw [Int.sub_zero, ofTotal_total t h]

theorem weekday_lt (t : DateTime) : weekday t < 7 := Nat.mod_lt _ (by decide)

theorem day_word (d : Nat) (h : d < 7) : Word (dayNames.getD d [] ++ s%",") := by
  refine ⟨by simp, fun c hc => ?_⟩
  rcases List.mem_append.1 hc with h1 | h1
  · have := List.all_eq_true.1 (day_check d h).1 c h1
    simpa using this
  · rw [List.mem_singleton] at h1; subst h1; decide

theorem month_word (m : Nat) (h : 1 ≤ m ∧ m ≤ 12) : Word (monthNames.getD (m - 1) []) := by
  obtain ⟨_, h1, h2⟩ := month_check m (by omega) h.1
  refine ⟨h1, fun c hc => ?_⟩
  have := List.all_eq_true.1 h2 c hc
  simp only [Bool.and_eq_true, Bool.not_eq_true'] at this
  exact this.1

/-- The words of an RFC 1123 date. -/
def parts1123 (t : DateTime) (zone : Str) : List Str :=
  [dayNames.getD (weekday t) [] ++ s%",", pad2 t.day, monthNames.getD (t.month - 1) [], Py.natStr t.year,
    clock t.hour t.minute t.second, zone]

theorem httpDate_eq (t : DateTime) : httpDate t = Py.join s%" " (parts1123 t s%"GMT") := by
  simp [httpDate, dumpDate, parts1123, clock, Py.join]

theorem day_bound (t : DateTime) (h : Valid t) : t.day < 100 := by
  obtain ⟨h1, h2, h3, h4, h5, h6, _⟩ := h
  rw [← monthLength_eq _ _ ⟨h3, h4⟩] at h6
  have := daysInMonth_le (isLeap t.year) t.month (by omega)
  omega

theorem parts1123_words (t : DateTime) (h : Valid t) (zone : Str) (hz : Word zone) :
    ∀ w ∈ parts1123 t zone, Word w := by
  have hd := day_bound t h
  obtain ⟨h1, h2, h3, h4, h5, h6, h7, h8, h9⟩ := h
  intro w hw
  simp only [parts1123, List.mem_cons, List.not_mem_nil, or_false] at hw
  rcases hw with rfl | rfl | rfl | rfl | rfl | rfl
  · exact day_word _ (weekday_lt t)
  · exact digits_word _ (pad2_digits _ hd)
  · exact month_word _ ⟨h3, h4⟩
  · exact digits_word _ (natStr_Digits _)
  · exact clock_word _ _ _ (by omega) (by omega) (by omega)
  · exact hz

theorem parsed1123 (t : DateTime) (h : Valid t) (zone : Str) (hz : Word zone) :
    parsedateTz (Py.join s%" " (parts1123 t zone)) =
      .ok (some ⟨adjust t.year, t.month, t.day, t.hour, t.minute, t.second, zoneSeconds zone⟩) := by
  have hd := day_bound t h
  unfold parsedateTz
  rw [words_join _ (parts1123_words t h zone hz)]
  obtain ⟨h1, h2, h3, h4, h5, h6, h7, h8, h9⟩ := h
  have e : dropDay (parts1123 t zone) = [pad2 t.day, monthNames.getD (t.month - 1) [], Py.natStr t.year,
    clock t.hour t.minute t.second, zone] := by
    unfold parts1123 dropDay
    exact if_pos (.inl (by simp))
  simp only [parts1123] at e ⊢
  rw [e]
  simp only [unhyphen, addZone]
  exact fields_std _ _ zone t.year t.day t.month t.hour t.minute t.second ⟨h3, h4⟩ (Py.intOf_natStr _)
    (natStr_Digits _) (pad2_check _ hd).1 (pad2_digits _ hd) (by omega) (by omega) (by omega)

/-! ### C59 -/

/-- Every date of the years 100 to 9999 is read back from its HTTP date. -/
theorem C59_roundtrip (t : DateTime) (h : Valid t) (hy : 100 ≤ t.year) : parseDate (httpDate t) = .ok (some t) := by
  have hz : Word s%"GMT" := ⟨by decide, by decide⟩
  have hp := parsed1123 t h s%"GMT" hz
  have : adjust t.year = t.year := by unfold adjust; rw [if_neg (by omega)]
  rw [this] at hp
  rw [httpDate_eq, parse_of_parsed _ (parts1123_words t h _ hz) (by simp [parts1123]) t _ h hy hp]
  have hz0 : zoneSeconds s%"GMT" = 0 := by decide
  rw [hz0, sub_zero t h]

/-- A time stamp, in seconds since 1970, written as an HTTP date is read back as the date and
time of that number of seconds; every time stamp of the years 1 to 9999 has a date. -/
theorem C59_timestamp (n : Int) (h : -62135596800 ≤ n ∧ n ≤ 253402300799) :
    ∃ t, gmtime n = some t ∧ Valid t ∧ epoch t = n ∧ (100 ≤ t.year → parseDate (httpDate t) = .ok (some t)) := by
  cases hg : gmtime n with
  | none =>
    unfold gmtime ofTotal at hg
    simp only at hg
    split at hg
    · cases hg
    · omega
  | some t =>
    obtain ⟨h1, h2⟩ := total_ofTotal _ t hg
    exact ⟨t, rfl, h1, by rw [epoch_total t h1, h2]; omega, C59_roundtrip t h1⟩

/-- Years below 100 are not read back: they come back in the 20th or 21st century. -/
theorem C59_early_years (t : DateTime) (h : Valid t) (hy : t.year < 100) :
    parseDate (httpDate t) = .ok (some { t with year := if t.year > 68 then t.year + 1900 else t.year + 2000 }) := by
  have hz : Word s%"GMT" := ⟨by decide, by decide⟩
  have hp := parsed1123 t h s%"GMT" hz
  have ha : adjust t.year = if t.year > 68 then t.year + 1900 else t.year + 2000 := by
    unfold adjust; rw [if_pos hy]
  rw [← ha]
  have hv : Valid { t with year := adjust t.year } := by
    obtain ⟨h1, h2, h3, h4, h5, h6, h7⟩ := h
    refine ⟨by simp only; rw [ha]; split <;> omega, by simp only; rw [ha]; split <;> omega, h3, h4, h5, ?_, h7⟩
    simp only
    have hl : Leap (adjust t.year) ↔ Leap t.year := by
      rw [ha]; unfold Leap; split <;> omega
    unfold monthLength at h6 ⊢
    simp only [hl]
    exact h6
  have := parse_of_parsed _ (parts1123_words t h _ hz) (by simp [parts1123]) { t with year := adjust t.year } _ hv
    (by simp only; rw [ha]; split <;> omega) hp
  rw [httpDate_eq, this]
  have hz0 : zoneSeconds s%"GMT" = 0 := by decide
  rw [hz0, sub_zero _ hv]

example : Valid ⟨1994, 11, 6, 8, 49, 37⟩ ∧ Valid ⟨2000, 2, 29, 23, 59, 59⟩ ∧
    httpDate ⟨1994, 11, 6, 8, 49, 37⟩ = s%"Sun, 06 Nov 1994 08:49:37 GMT" ∧
    gmtime 784111777 = some ⟨1994, 11, 6, 8, 49, 37⟩ := by
  refine ⟨by unfold Valid; decide, by unfold Valid; decide, by decide +kernel, by decide +kernel⟩

/-! ### C76 -/

theorem words_ne_nil (s cur : Str) : ∀ w ∈ Utils.wordsGo cur s, w ≠ [] := by
  induction s generalizing cur with
  | nil =>
    intro w hw
    rw [Utils.wordsGo] at hw
    split at hw
    · cases hw
    · rw [List.mem_singleton] at hw; subst hw; assumption
  | cons c s ih =>
    intro w hw
    rw [Utils.wordsGo] at hw
    split at hw
    · split at hw
      · exact ih _ w hw
      · rcases List.mem_cons.1 hw with rfl | h1
        · assumption
        · exact ih _ w h1
    · exact ih _ w hw

/-- The fourth part, if any, is not empty. -/
def FourthOk (l : List Str) : Prop := ∀ s, l[3]? = some s → s ≠ []

theorem dropDay_tail (l : List Str) (h : ∀ w ∈ l, w ≠ []) : ∀ w ∈ (dropDay l).tail, w ≠ [] := by
  intro w hw
  cases l with
  | nil => cases hw
  | cons a r =>
    simp only [dropDay] at hw
    split at hw
    · exact h w (.tail _ (List.mem_of_mem_tail hw))
    · split at hw
      · exact h w (.tail _ hw)
      · exact h w (.tail _ hw)

theorem fourth_of_tail (l : List Str) (h : ∀ w ∈ l.tail, w ≠ []) : FourthOk l := by
  intro s hs
  cases l with
  | nil => cases hs
  | cons a r =>
    apply h
    rw [List.getElem?_cons_succ] at hs
    exact List.mem_of_getElem? hs

theorem unhyphen_fourth (l : List Str) (h : ∀ w ∈ l.tail, w ≠ []) : FourthOk (unhyphen l) := by
  unfold unhyphen
  split
  · rename_i a b c
    split
    · rename_i hl
      intro s hs
      rw [List.getElem?_append_right (by omega), hl] at hs
      simp only [Nat.sub_self, List.getElem?_cons_zero, Option.some.injEq] at hs
      subst hs
      exact h _ (by simp)
    · intro s hs; simp at hs
  · exact fourth_of_tail l h

theorem addZone_fourth (l : List Str) (h : FourthOk l) : FourthOk (addZone l) := by
  unfold addZone
  split
  · rename_i a b c s
    simp only
    generalize (if s.contains '+' = true then '+' else '-') = x
    split
    · rename_i hx
      intro u hu
      simp only [List.getElem?_cons_succ, List.getElem?_cons_zero, Option.some.injEq] at hu
      subst hu
      exact hx.2
    · intro u hu
      simp only [List.getElem?_cons_succ, List.getElem?_cons_zero, Option.some.injEq] at hu
      subst hu
      exact h _ rfl
  · exact h

theorem dropComma_ok (s : Str) (h : s ≠ []) : ∃ r, dropComma s = .ok r := by
  unfold dropComma
  cases hl : s.getLast? with
  | none => exact absurd (List.getLast?_eq_none_iff.1 hl) h
  | some c => exact ⟨_, rfl⟩

theorem firstDigit_ok (s : Str) (h : s ≠ []) : ∃ r, firstDigit s = .ok r := by
  cases s with
  | nil => exact absurd rfl h
  | cons c s => exact ⟨_, rfl⟩

theorem finish_ok (dd : Str) (mm : Nat) (yy tm tz : Str) (h1 : yy ≠ []) (h2 : tm ≠ []) :
    ∃ r, finish dd mm yy tm tz = .ok r := by
  obtain ⟨b, hb⟩ := firstDigit_ok yy h1
  obtain ⟨t, ht⟩ := dropComma_ok tm h2
  unfold finish
  rw [hb, ht]
  simp only
  split <;> exact ⟨_, rfl⟩

theorem fields_ok (dd mm yy tm tz : Str) (h : tm ≠ []) : ∃ r, fields dd mm yy tm tz = .ok r := by
  unfold fields
  split
  · exact ⟨_, rfl⟩
  · rename_i hn
    rw [not_or, not_or] at hn
    split
    · exact ⟨_, rfl⟩
    · rename_i dd' mm' hdm
      have hd : dd' ≠ [] := by
        unfold dayMonth at hdm
        split at hdm
        · cases hdm; exact hn.1
        · split at hdm
          · cases hdm
            unfold lower
            rw [Ne, List.map_eq_nil_iff]
            exact hn.2.1
          · cases hdm
      obtain ⟨r, hr⟩ := dropComma_ok dd' hd
      rw [hr]
      simp only
      have hy : (if colonInside yy = true then tm else yy) ≠ [] := by
        split
        · exact h
        · exact hn.2.2
      have ht : (if colonInside yy = true then yy else tm) ≠ [] := by
        split
        · exact hn.2.2
        · exact h
      obtain ⟨y, hy'⟩ := dropComma_ok _ hy
      rw [hy']
      simp only
      split
      · exact ⟨_, rfl⟩
      · rename_i hyn
        exact finish_ok _ _ _ _ _ hyn ht

theorem parsedateTz_ok (data : Str) : ∃ r, parsedateTz data = .ok r := by
  unfold parsedateTz
  split
  · exact ⟨_, rfl⟩
  · split
    · rename_i dd mm yy tm tz rest he
      apply fields_ok
      have := addZone_fourth _ (unhyphen_fourth _ (dropDay_tail _ (words_ne_nil data [])))
      apply this
      have e : Utils.wordsGo [] data = Utils.words data := rfl
      rw [e, he]
      rfl
    · exact ⟨_, rfl⟩

theorem mk_spec (y m d h mi s : Int) (t : DateTime) (he : mkDateTime y m d h mi s = some t) : Valid t := by
  unfold mkDateTime at he
  split at he
  · rename_i hc
    rw [Option.some.injEq] at he
    subst he
    obtain ⟨c1, c2, c3, c4, c5, c6, c7, c8, c9, c10, c11, c12⟩ := hc
    rw [monthLength_eq _ _ ⟨by omega, by omega⟩] at c6
    refine ⟨?_, ?_, ?_, ?_, ?_, ?_, ?_, ?_, ?_⟩ <;> simp only <;> omega
  · cases he

/-- Reading a date never raises, whatever the header: the answer is `None` or a date of the
calendar. -/
theorem C76_total (value : Str) :
    parseDate value = .ok none ∨ ∃ t, parseDate value = .ok (some t) ∧ Valid t := by
  unfold parseDate
  split
  · exact .inl rfl
  · obtain ⟨r, hr⟩ := parsedateTz_ok (Py.strip value)
    rw [hr]
    cases r with
    | none => exact .inl rfl
    | some p =>
      simp only
      split
      · exact .inl rfl
      · rename_i d hd
        cases hs : sub d p.zone with
        | none => exact .inl rfl
        | some t => exact .inr ⟨t, rfl, (total_ofTotal _ t hs).1⟩

example : parseDate s%"Sun, 31 Feb 2016 10:00:00 GMT" = .ok none ∧ parseDate s%" , - , - " = .ok none ∧
    parseDate s%"Sun, 28 Feb 2016 10:00:00 -0100" = .ok (some ⟨2016, 2, 28, 11, 0, 0⟩) := by
  refine ⟨by decide +kernel, by decide +kernel, by decide +kernel⟩

/-- **C76, fields out of range.**  A date in the form of RFC 1123, with any numbers in its
fields, is read as the date it spells when there is such a date, and as `None` otherwise: no
31st of April, no 29th of February in common years, no hour 24 and no second 60. -/
theorem C76_fields (wd y mo d h m s : Nat) (hwd : wd < 7) (hmo : 1 ≤ mo ∧ mo ≤ 12) (hy : 100 ≤ y) (hd : d < 100)
    (hh : h < 100) (hm : m < 100) (hs : s < 100) :
    let text := Py.join s%" " [dayNames.getD wd [] ++ s%",", pad2 d, monthNames.getD (mo - 1) [], Py.natStr y,
      pad2 h ++ s%":" ++ pad2 m ++ s%":" ++ pad2 s, s%"GMT"]
    (Valid ⟨y, mo, d, h, m, s⟩ → parseDate text = .ok (some ⟨y, mo, d, h, m, s⟩)) ∧
    (¬ Valid ⟨y, mo, d, h, m, s⟩ → parseDate text = .ok none) := by
  have hz : Word s%"GMT" := ⟨by decide, by decide⟩
  have hz0 : zoneSeconds s%"GMT" = 0 := by decide
  have hw : ∀ w ∈ [dayNames.getD wd [] ++ s%",", pad2 d, monthNames.getD (mo - 1) [], Py.natStr y,
      clock h m s, s%"GMT"], Word w := by
    intro w hw
    simp only [List.mem_cons, List.not_mem_nil, or_false] at hw
    rcases hw with rfl | rfl | rfl | rfl | rfl | rfl
    · exact day_word _ hwd
    · exact digits_word _ (pad2_digits _ hd)
    · exact month_word _ hmo
    · exact digits_word _ (natStr_Digits _)
    · exact clock_word _ _ _ hh hm hs
    · exact hz
  have hp : parsedateTz (Py.join s%" " [dayNames.getD wd [] ++ s%",", pad2 d, monthNames.getD (mo - 1) [], Py.natStr y,
      clock h m s, s%"GMT"]) = .ok (some ⟨y, mo, d, h, m, s, 0⟩) := by
    unfold parsedateTz
    rw [words_join _ hw]
    have e : dropDay [dayNames.getD wd [] ++ s%",", pad2 d, monthNames.getD (mo - 1) [], Py.natStr y,
      clock h m s, s%"GMT"] = [pad2 d, monthNames.getD (mo - 1) [], Py.natStr y, clock h m s, s%"GMT"] := by
      unfold dropDay
      exact if_pos (.inl (by simp))
    simp only
    rw [e]
    simp only [unhyphen, addZone]
    have := fields_std _ _ s%"GMT" y d mo h m s hmo (Py.intOf_natStr _)
      (natStr_Digits _) (pad2_check _ hd).1 (pad2_digits _ hd) hh hm hs
    rwa [hz0, show adjust y = y by unfold adjust; rw [if_neg (by omega)]] at this
  have hc : pad2 h ++ s%":" ++ pad2 m ++ s%":" ++ pad2 s = clock h m s := rfl
  simp only [hc]
  constructor
  · intro hv
    rw [parse_of_parsed _ hw (by simp) ⟨y, mo, d, h, m, s⟩ 0 hv hy hp, sub_zero _ hv]
  · intro hv
    have hn : Py.join s%" " [dayNames.getD wd [] ++ s%",", pad2 d, monthNames.getD (mo - 1) [], Py.natStr y,
      clock h m s, s%"GMT"] ≠ [] := by
      intro e
      have := words_join _ hw
      rw [e] at this
      rw [show Utils.words [] = [] by decide] at this
      cases this
    unfold parseDate
    rw [if_neg hn, strip_join _ hw, hp]
    simp only
    rw [if_neg (by omega), if_neg (by omega)]
    cases hmk : mkDateTime y mo d h m s with
    | none => rfl
    | some t =>
      exfalso
      have ht := mk_spec _ _ _ _ _ _ t hmk
      apply hv
      unfold mkDateTime at hmk
      split at hmk
      · cases hmk
        simpa using ht
      · cases hmk

example : ¬ Valid ⟨2015, 2, 29, 0, 0, 0⟩ ∧ ¬ Valid ⟨2015, 12, 31, 23, 59, 60⟩ ∧ Valid ⟨2016, 2, 29, 0, 0, 0⟩ := by
  unfold Valid; decide

/-! ### C77 -/

theorem sub_spec (t : DateTime) (h : Valid t) (z : Int) :
    (∃ r, sub t z = some r ∧ Valid r ∧ epoch r = epoch t - z) ∨
    (sub t z = none ∧ (epoch t - z < -62135596800 ∨ 253402300799 < epoch t - z)) := by
  rw [epoch_total t h]
  cases hs : sub t z with
  | some r =>
    obtain ⟨h1, h2⟩ := total_ofTotal _ r hs
    exact .inl ⟨r, rfl, h1, by rw [epoch_total r h1, h2]; omega⟩
  | none =>
    refine .inr ⟨rfl, ?_⟩
    unfold sub ofTotal at hs
    simp only at hs
    split at hs
    · cases hs
    · omega

theorem pad2_value : ∀ n < 100, (pad2 n).length = 2 ∧ (pad2 n).foldl (fun a x => a * 10 + (x.toNat - 48)) 0 = n := by
  decide +kernel

theorem pad2_fold (n : Nat) (h : n < 100) (acc : Nat) :
    (pad2 n).foldl (fun a x => a * 10 + (x.toNat - 48)) acc = acc * 100 + n := by
  obtain ⟨h1, h2⟩ := pad2_value n h
  match hp : pad2 n, h1 with
  | [a, b], _ =>
    rw [hp] at h2
    simp only [List.foldl_cons, List.foldl_nil] at h2 ⊢
    omega

theorem upper_digits (s : Str) (h : ∀ c ∈ s, Py.IsDig c) : upper s = s := by
  unfold upper
  refine Py.map_eq_self.2 fun c hc => ?_
  have hc := h c hc
  unfold Py.IsDig at hc
  have : ∀ m < 128, 48 ≤ m → m ≤ 57 → (Char.ofNat m).toUpper = Char.ofNat m := by decide +kernel
  have := this c.toNat (by omega) hc.1 hc.2
  rwa [Char.ofNat_toNat] at this

theorem no_zone (c : Char) (s : Str) (h : c = '+' ∨ c = '-') : timezones.lookup (c :: s) = none := by
  rcases h with rfl | rfl <;> rfl

theorem zone_check (hh : Nat) (h1 : hh < 100) (mm : Nat) (h2 : mm < 60) (sg : Bool) :
    zoneSeconds ((if sg then '+' else '-') :: (pad2 hh ++ pad2 mm)) =
      (if sg then 1 else -1) * (hh * 3600 + mm * 60 : Int) := by
  have hd : ∀ c ∈ pad2 hh ++ pad2 mm, Py.IsDig c := fun c hc => by
    rcases List.mem_append.1 hc with h | h
    · exact (pad2_digits hh h1).2 c h
    · exact (pad2_digits mm (by omega)).2 c h
  have hv : Py.digitsGo false 0 (pad2 hh ++ pad2 mm) = some (hh * 100 + mm) := by
    rw [Py.digitsGo_digits _ _ _ hd (.inl (by simp [(pad2_digits hh h1).1])), List.foldl_append, pad2_fold hh h1,
      pad2_fold mm (by omega)]
    simp
  have hs : ∀ c : Char, c = '+' ∨ c = '-' → Py.strip (c :: (pad2 hh ++ pad2 mm)) = c :: (pad2 hh ++ pad2 mm) := fun c hc => by
    refine Py.strip_nospace _ fun x hx => ?_
    rcases List.mem_cons.1 hx with rfl | hx
    · rcases hc with rfl | rfl <;> decide
    · exact Py.isDig_not_space x (hd x hx)
  have hu : ∀ c : Char, c = '+' ∨ c = '-' → upper (c :: (pad2 hh ++ pad2 mm)) = c :: (pad2 hh ++ pad2 mm) := fun c hc => by
    have := upper_digits _ hd
    unfold upper at this ⊢
    rw [List.map_cons, this]
    rcases hc with rfl | rfl <;> rfl
  cases sg with
  | true =>
    have hn : zoneNumber ('+' :: (pad2 hh ++ pad2 mm)) = some ((hh * 100 + mm : Nat) : Int) := by
      unfold zoneNumber
      rw [hu _ (.inl rfl), no_zone _ _ (.inl rfl)]
      have : Py.intOf ('+' :: (pad2 hh ++ pad2 mm)) = .ok ((hh * 100 + mm : Nat) : Int) := by
        unfold Py.intOf
        rw [hs _ (.inl rfl)]
        simp only [hv]
      simp only [this]
      rw [if_neg]
      simp
    simp only [if_true]
    unfold zoneSeconds
    rw [hn]
    simp only
    rw [if_neg (by omega)]
    omega
  | false =>
    have hi : Py.intOf ('-' :: (pad2 hh ++ pad2 mm)) = .ok (-((hh * 100 + mm : Nat) : Int)) := by
      unfold Py.intOf
      rw [hs _ (.inr rfl)]
      simp only [hv]
    have hn : zoneNumber ('-' :: (pad2 hh ++ pad2 mm)) =
        if hh * 100 + mm = 0 then none else some (-((hh * 100 + mm : Nat) : Int)) := by
      unfold zoneNumber
      rw [hu _ (.inr rfl), no_zone _ _ (.inr rfl)]
      simp only [hi]
      split <;> split <;> first | rfl | (exfalso; simp at *; omega)
    simp only [Bool.false_eq_true, if_false]
    unfold zoneSeconds
    rw [hn]
    by_cases h0 : hh * 100 + mm = 0
    · rw [if_pos h0]
      simp only
      omega
    · rw [if_neg h0]
      simp only
      rw [if_pos (by omega)]
      omega

/-- A date with an offset from UTC denotes the moment that many minutes earlier; `None` only
where that moment is outside of the years 1 to 9999. -/
theorem C77_offset (t : DateTime) (h : Valid t) (hy : 100 ≤ t.year) (plus : Bool) (hh mm : Nat)
    (h1 : hh < 100) (h2 : mm < 60) :
    let off : Int := (if plus then 1 else -1) * (hh * 3600 + mm * 60 : Int)
    let text := Py.join s%" " [dayNames.getD (weekday t) [] ++ s%",", pad2 t.day,
      monthNames.getD (t.month - 1) [], Py.natStr t.year, clock t.hour t.minute t.second,
      (if plus then '+' else '-') :: (pad2 hh ++ pad2 mm)]
    (∃ r, parseDate text = .ok (some r) ∧ Valid r ∧ epoch r = epoch t - off) ∨
    (parseDate text = .ok none ∧ (epoch t - off < -62135596800 ∨ 253402300799 < epoch t - off)) := by
  intro off text
  have hz : Word ((if plus then '+' else '-') :: (pad2 hh ++ pad2 mm)) := by
    refine ⟨by simp, fun c hc => ?_⟩
    rcases List.mem_cons.1 hc with rfl | hc
    · cases plus <;> decide
    · rcases List.mem_append.1 hc with hc | hc
      · exact (digits_word _ (pad2_digits hh h1)).2 c hc
      · exact (digits_word _ (pad2_digits mm (by omega))).2 c hc
  have hp := parsed1123 t h _ hz
  have ha : adjust t.year = t.year := by unfold adjust; rw [if_neg (by omega)]
  rw [ha, zone_check hh h1 mm h2 plus] at hp
  have e : parseDate text = .ok (sub t off) :=
    parse_of_parsed _ (parts1123_words t h _ hz) (by simp [parts1123]) t _ h hy hp
  rw [e]
  rcases sub_spec t h off with ⟨r, hr, hv, hr2⟩ | ⟨hn, hr⟩
  · exact .inl ⟨r, by rw [hr], hv, hr2⟩
  · exact .inr ⟨by rw [hn], hr⟩

theorem intOf_pad2_year (y : Nat) : Py.intOf (pad2 (y % 100)) = .ok ((y % 100 : Nat) : Int) :=
  (pad2_check _ (Nat.mod_lt _ (by decide))).1

/-- The format of RFC 850: years 1969 to 2068 are read back, whatever the name of the day. -/
theorem C77_rfc850 (wd : Str) (hwd : ∀ c ∈ wd, Py.isSpace c = false) (t : DateTime) (h : Valid t)
    (hy : 1969 ≤ t.year ∧ t.year ≤ 2068) :
    parseDate (wd ++ s%", " ++ pad2 t.day ++ s%"-" ++ monthNames.getD (t.month - 1) [] ++ s%"-" ++
      pad2 (t.year % 100) ++ s%" " ++ clock t.hour t.minute t.second ++ s%" GMT") = .ok (some t) := by
  have hd := day_bound t h
  have hv := h
  obtain ⟨h1, h2, h3, h4, h5, h6, h7, h8, h9⟩ := h
  have hyd : Digits (pad2 (t.year % 100)) := pad2_digits _ (Nat.mod_lt _ (by decide))
  have e : wd ++ s%", " ++ pad2 t.day ++ s%"-" ++ monthNames.getD (t.month - 1) [] ++ s%"-" ++
      pad2 (t.year % 100) ++ s%" " ++ clock t.hour t.minute t.second ++ s%" GMT" =
      Py.join s%" " [wd ++ s%",", Py.join s%"-" [pad2 t.day, monthNames.getD (t.month - 1) [], pad2 (t.year % 100)],
        clock t.hour t.minute t.second, s%"GMT"] := by
    simp [Py.join]
  rw [e]
  have hw : ∀ w ∈ [wd ++ s%",", Py.join s%"-" [pad2 t.day, monthNames.getD (t.month - 1) [], pad2 (t.year % 100)],
        clock t.hour t.minute t.second, s%"GMT"], Word w := by
    intro w hw
    simp only [List.mem_cons, List.not_mem_nil, or_false] at hw
    rcases hw with rfl | rfl | rfl | rfl
    · refine ⟨by simp, fun c hc => ?_⟩
      rcases List.mem_append.1 hc with hc | hc
      · exact hwd c hc
      · rw [List.mem_singleton] at hc; subst hc; decide
    · refine ⟨by simp [Py.join], fun c hc => ?_⟩
      simp only [Py.join, List.mem_append, List.mem_singleton] at hc
      rcases hc with (hc | rfl) | ((hc | rfl) | hc)
      · exact (digits_word _ (pad2_digits _ hd)).2 c hc
      · decide
      · exact (month_word _ ⟨h3, h4⟩).2 c hc
      · decide
      · exact (digits_word _ hyd).2 c hc
    · exact clock_word _ _ _ (by omega) (by omega) (by omega)
    · exact ⟨by decide, by decide⟩
  have ha : adjust (t.year % 100) = t.year := by
    unfold adjust
    rw [if_pos (by omega)]
    split <;> omega
  have hsp : Py.splitOn '-' (Py.join s%"-" [pad2 t.day, monthNames.getD (t.month - 1) [], pad2 (t.year % 100)]) =
      [pad2 t.day, monthNames.getD (t.month - 1) [], pad2 (t.year % 100)] := by
    apply Py.splitOn_join '-' _ (by simp)
    intro p hp
    simp only [List.mem_cons, List.not_mem_nil, or_false] at hp
    rcases hp with rfl | rfl | rfl
    · exact digits_not_mem _ (pad2_digits _ hd) _ (by decide)
    · intro hm
      have := List.all_eq_true.1 (month_check t.month (by omega) h3).2.2 _ hm
      simp at this
    · exact digits_not_mem _ hyd _ (by decide)
  have hp : parsedateTz (Py.join s%" " [wd ++ s%",", Py.join s%"-" [pad2 t.day, monthNames.getD (t.month - 1) [],
      pad2 (t.year % 100)], clock t.hour t.minute t.second, s%"GMT"]) =
      .ok (some ⟨t.year, t.month, t.day, t.hour, t.minute, t.second, 0⟩) := by
    unfold parsedateTz
    rw [words_join _ hw]
    have e1 : dropDay [wd ++ s%",", Py.join s%"-" [pad2 t.day, monthNames.getD (t.month - 1) [], pad2 (t.year % 100)],
        clock t.hour t.minute t.second, s%"GMT"] = [Py.join s%"-" [pad2 t.day, monthNames.getD (t.month - 1) [],
        pad2 (t.year % 100)], clock t.hour t.minute t.second, s%"GMT"] := by
      unfold dropDay
      exact if_pos (.inl (by simp))
    simp only [e1]
    unfold unhyphen
    simp only [hsp, List.length_cons, List.length_nil, if_true, List.cons_append, List.nil_append, addZone]
    rw [fields_std _ _ _ (t.year % 100) t.day t.month t.hour t.minute t.second ⟨h3, h4⟩ (intOf_pad2_year _) hyd
      (pad2_check _ hd).1 (pad2_digits _ hd) (by omega) (by omega) (by omega), ha]
    have : zoneSeconds s%"GMT" = 0 := by decide
    rw [this]
  rw [parse_of_parsed _ hw (by simp) t 0 hv (by omega) hp, sub_zero t hv]

theorem lower_digits (s : Str) (h : Digits s) : lower s = s := by
  unfold lower
  apply Py.map_eq_self.2
  intro c hc
  have := h.2 c hc
  unfold Py.IsDig at this
  unfold Char.toLower
  rw [dif_neg]
  intro hh
  have h65 : (65 : Nat) ≤ c.val.toNat := UInt32.le_iff_toNat_le.1 hh.1
  have h57 : c.val.toNat ≤ 57 := this.2
  omega

theorem monthNumber_digits (s : Str) (h : Digits s) : monthNumber s = none := by
  unfold monthNumber
  rw [if_neg]
  intro hm
  have hc : ∀ m ∈ months, m.any (fun c => c.toNat > 57) = true := by decide +kernel
  obtain ⟨c, h1, h2⟩ := List.any_eq_true.1 (hc s hm)
  have := h.2 c h1
  unfold Py.IsDig at this
  simp at h2
  omega

theorem wordsGo_space (r : Str) : Utils.wordsGo [] (' ' :: r) = Utils.wordsGo [] r := by
  rw [Utils.wordsGo, if_pos (by decide), if_pos rfl]

/-- The format of `asctime()`, which pads the day with a space. -/
theorem C77_asctime (t : DateTime) (h : Valid t) (hy : 100 ≤ t.year) :
    parseDate (dayNames.getD (weekday t) [] ++ s%" " ++ monthNames.getD (t.month - 1) [] ++ s%" " ++
      (if t.day < 10 then s%" " else []) ++ Py.natStr t.day ++ s%" " ++ clock t.hour t.minute t.second ++ s%" " ++
      Py.natStr t.year) = .ok (some t) := by
  have hv := h
  obtain ⟨h1, h2, h3, h4, h5, h6, h7, h8, h9⟩ := h
  obtain ⟨d1, d2, d3⟩ := day_check (weekday t) (weekday_lt t)
  obtain ⟨m1, m2, m3⟩ := month_check t.month (by omega) h3
  have hwd : ∀ c ∈ dayNames.getD (weekday t) [], Py.isSpace c = false := fun c hc => by
    simpa using List.all_eq_true.1 d1 c hc
  have hmw := month_word t.month ⟨h3, h4⟩
  have hdw := digits_word _ (natStr_Digits t.day)
  have hyw := digits_word _ (natStr_Digits t.year)
  have hcw := clock_word t.hour t.minute t.second (by omega) (by omega) (by omega)
  generalize hD : dayNames.getD (weekday t) [] = wd at *
  generalize hM : monthNames.getD (t.month - 1) [] = mo at *
  generalize hT : wd ++ s%" " ++ mo ++ s%" " ++
      (if t.day < 10 then s%" " else []) ++ Py.natStr t.day ++ s%" " ++ clock t.hour t.minute t.second ++ s%" " ++
      Py.natStr t.year = text
  have hwords : Utils.words text = [wd, mo, Py.natStr t.day, clock t.hour t.minute t.second, Py.natStr t.year] := by
    have last : Utils.wordsGo [] (Py.natStr t.year) = [Py.natStr t.year] := by
      rw [Utils.wordsGo_plain _ [] hyw.2, List.nil_append, if_neg hyw.1]
    have rest : Utils.wordsGo [] (Py.natStr t.day ++ ' ' :: (clock t.hour t.minute t.second ++ ' ' :: Py.natStr t.year)) =
        [Py.natStr t.day, clock t.hour t.minute t.second, Py.natStr t.year] := by
      rw [wordsGo_word _ _ [] hdw.2 (by simpa using hdw.1), wordsGo_word _ _ [] hcw.2 (by simpa using hcw.1), last]
      rfl
    have e : text = wd ++ ' ' :: (mo ++ ' ' :: ((if t.day < 10 then s%" " else []) ++ (Py.natStr t.day ++ ' ' ::
        (clock t.hour t.minute t.second ++ ' ' :: Py.natStr t.year)))) := by
      rw [← hT]; simp
    unfold Utils.words
    rw [e, wordsGo_word _ _ [] hwd (by simpa using d3), wordsGo_word _ _ [] hmw.2 (by simpa using hmw.1)]
    split
    · show _ :: _ :: Utils.wordsGo [] (' ' :: (Py.natStr t.day ++ ' ' ::
        (clock t.hour t.minute t.second ++ ' ' :: Py.natStr t.year))) = _
      rw [wordsGo_space, rest]
      rfl
    · simp only [List.nil_append]
      rw [rest]
  have hst : Py.strip text = text := by
    rw [← hT]
    apply Py.stripP_id
    · intro c hc
      cases wd with
      | nil => exact absurd rfl d3
      | cons a w =>
        simp only [List.cons_append, List.head?_cons, Option.some.injEq] at hc
        subst hc
        exact hwd _ (.head _)
    · intro c hc
      rw [List.getLast?_append, List.getLast?_eq_some_getLast hyw.1] at hc
      simp only [Option.some_or, Option.some.injEq] at hc
      subst hc
      exact hyw.2 _ (List.getLast_mem _)
  have hp : parsedateTz text = .ok (some ⟨t.year, t.month, t.day, t.hour, t.minute, t.second, 0⟩) := by
    unfold parsedateTz
    rw [hwords]
    have e1 : dropDay [wd, mo, Py.natStr t.day, clock t.hour t.minute t.second, Py.natStr t.year] =
        [mo, Py.natStr t.day, clock t.hour t.minute t.second, Py.natStr t.year] := by
      unfold dropDay
      exact if_pos (.inr d2)
    have c1 : '+' ∉ Py.natStr t.year := Py.natStr_not_mem _ _ (by decide)
    have c2 : '-' ∉ Py.natStr t.year := Py.natStr_not_mem _ _ (by decide)
    have c1' : (Py.natStr t.year).contains '+' = false := by
      rw [← Bool.not_eq_true, List.contains_iff_mem]; exact c1
    have c2' : (Py.natStr t.year).contains '-' = false := by
      rw [← Bool.not_eq_true, List.contains_iff_mem]; exact c2
    simp only [e1, unhyphen, addZone, c1', Bool.false_eq_true, if_false, c2', false_and]
    have hcl : colonInside (clock t.hour t.minute t.second) = true := by
      have hb := pad2_digits t.hour (by omega)
      unfold colonInside
      rw [Bool.and_eq_true]
      constructor
      · rw [List.contains_iff_mem]; simp [clock]
      · cases hq : pad2 t.hour with
        | nil => exact absurd hq hb.1
        | cons a r =>
          have : Py.IsDig a := hb.2 a (by rw [hq]; exact .head _)
          simp only [clock, hq, List.cons_append, List.head?_cons, bne_iff_ne, ne_eq, Option.some.injEq]
          rintro rfl
          revert this; unfold Py.IsDig; decide
    unfold fields
    rw [if_neg (by simp only [m2, hdw.1, hcw.1, or_self, not_false_eq_true])]
    unfold dayMonth
    rw [lower_digits _ (natStr_Digits _), monthNumber_digits _ (natStr_Digits _), m1]
    simp only [hcl, if_true]
    rw [dropComma_id _ hdw.1 (Py.natStr_not_mem _ _ (by decide))]
    simp only
    rw [dropComma_id _ hyw.1 (Py.natStr_not_mem _ _ (by decide))]
    simp only
    rw [if_neg hyw.1]
    unfold finish
    rw [firstDigit_digits _ (natStr_Digits _)]
    simp only [if_true]
    rw [dropComma_id _ hcw.1 (clock_no_comma _ _ _ (by omega) (by omega) (by omega))]
    simp only
    rw [clock_split _ _ _ (by omega) (by omega) (by omega)]
    simp only
    rw [numbers_eq _ _ t.year t.day t.month t.hour t.minute t.second [] (Py.intOf_natStr _) (Py.intOf_natStr _)
      (by omega) (by omega) (by omega)]
    have ha : adjust t.year = t.year := by unfold adjust; rw [if_neg (by omega)]
    have hz : zoneSeconds [] = 0 := by decide
    rw [ha, hz]
  unfold parseDate
  rw [if_neg, hst, hp]
  · simp only
    rw [if_neg (by omega), if_neg (by omega), mk_valid t hv]
    simp only [sub_zero t hv]
  · intro e
    rw [e] at hwords
    cases hwords

/-- The zones that are known by name, with their offsets from UTC in hours. -/
def namedZones : List (Str × Int) :=
  [(s%"UT", 0), (s%"UTC", 0), (s%"GMT", 0), (s%"Z", 0), (s%"AST", -4), (s%"ADT", -3), (s%"EST", -5), (s%"EDT", -4), (s%"CST", -6),
   (s%"CDT", -5), (s%"MST", -7), (s%"MDT", -6), (s%"PST", -8), (s%"PDT", -7)]

theorem clock_colon (h m s : Nat) (hh : h < 100) : colonInside (clock h m s) = true := by
  have hb := pad2_digits h hh
  unfold colonInside
  rw [Bool.and_eq_true]
  constructor
  · rw [List.contains_iff_mem]; simp [clock]
  · cases hq : pad2 h with
    | nil => exact absurd hq hb.1
    | cons a r =>
      have : Py.IsDig a := hb.2 a (by rw [hq]; exact .head _)
      simp only [clock, hq, List.cons_append, List.head?_cons, bne_iff_ne, ne_eq, Option.some.injEq]
      rintro rfl
      revert this; unfold Py.IsDig; decide

/-- A date with a zone known by name denotes the moment its offset earlier, whether the zone stands
behind the time or, as `date` prints it, between time and year. -/
theorem C77_named (t : DateTime) (h : Valid t) (hy : 100 ≤ t.year) (zone : Str) (hours : Int) (hz : (zone, hours) ∈ namedZones) :
    ∀ text ∈ [Py.join s%" " [dayNames.getD (weekday t) [] ++ s%",", pad2 t.day, monthNames.getD (t.month - 1) [], Py.natStr t.year,
          clock t.hour t.minute t.second, zone],
        Py.join s%" " [dayNames.getD (weekday t) [], monthNames.getD (t.month - 1) [], pad2 t.day, clock t.hour t.minute t.second, zone,
          Py.natStr t.year]],
    (∃ r, parseDate text = .ok (some r) ∧ Valid r ∧ epoch r = epoch t - hours * 3600) ∨
    (parseDate text = .ok none ∧ (epoch t - hours * 3600 < -62135596800 ∨ 253402300799 < epoch t - hours * 3600)) := by
  have hall : ∀ p ∈ namedZones, zoneSeconds p.1 = p.2 * 3600 ∧ p.1 ≠ [] ∧ p.1.all (fun c => !Py.isSpace c && c != ',' && !c.isDigit) = true ∧
      firstDigit p.1 = .ok false := by decide +kernel
  obtain ⟨z1, z2, z3, z4⟩ := hall _ hz
  simp only at z1 z2 z3 z4
  have z3' : ∀ c ∈ zone, Py.isSpace c = false ∧ c ≠ ',' := by
    intro c hc
    have := List.all_eq_true.1 z3 c hc
    simp at this
    exact ⟨this.1.1, this.1.2⟩
  have hzw : Word zone := ⟨z2, fun c hc => (z3' c hc).1⟩
  have hzc : ',' ∉ zone := fun h0 => (z3' _ h0).2 rfl
  have ha : adjust t.year = t.year := by unfold adjust; rw [if_neg (by omega)]
  have fin : ∀ text, parseDate text = .ok (sub t (hours * 3600)) →
      (∃ r, parseDate text = .ok (some r) ∧ Valid r ∧ epoch r = epoch t - hours * 3600) ∨
      (parseDate text = .ok none ∧ (epoch t - hours * 3600 < -62135596800 ∨ 253402300799 < epoch t - hours * 3600)) := by
    intro text e
    rw [e]
    rcases sub_spec t h (hours * 3600) with ⟨r, hr, hv, hr2⟩ | ⟨hn, hr⟩
    · exact .inl ⟨r, by rw [hr], hv, hr2⟩
    · exact .inr ⟨by rw [hn], hr⟩
  intro text ht
  simp only [List.mem_cons, List.not_mem_nil, or_false] at ht
  apply fin
  rcases ht with rfl | rfl
  · have hp := parsed1123 t h _ hzw
    rw [ha, z1] at hp
    exact parse_of_parsed _ (parts1123_words t h _ hzw) (by simp [parts1123]) t _ h hy hp
  · have hv := h
    obtain ⟨h1, h2, h3, h4, h5, h6, h7, h8, h9⟩ := h
    obtain ⟨d1, d2, d3⟩ := day_check (weekday t) (weekday_lt t)
    obtain ⟨m1, m2, m3⟩ := month_check t.month (by omega) h3
    have hwd : ∀ c ∈ dayNames.getD (weekday t) [], Py.isSpace c = false := fun c hc => by
      simpa using List.all_eq_true.1 d1 c hc
    have hmw := month_word t.month ⟨h3, h4⟩
    have hdb := day_bound t hv
    have hdw := digits_word _ (pad2_digits t.day hdb)
    have hyw := digits_word _ (natStr_Digits t.year)
    have hcw := clock_word t.hour t.minute t.second (by omega) (by omega) (by omega)
    have hw : ∀ w ∈ [dayNames.getD (weekday t) [], monthNames.getD (t.month - 1) [], pad2 t.day, clock t.hour t.minute t.second, zone,
        Py.natStr t.year], Word w := by
      intro w hw
      simp only [List.mem_cons, List.not_mem_nil, or_false] at hw
      rcases hw with rfl | rfl | rfl | rfl | rfl | rfl
      · exact ⟨d3, hwd⟩
      · exact hmw
      · exact hdw
      · exact hcw
      · exact hzw
      · exact hyw
    apply parse_of_parsed _ hw (by simp) t _ hv hy
    unfold parsedateTz
    rw [words_join _ hw]
    have e1 : dropDay [dayNames.getD (weekday t) [], monthNames.getD (t.month - 1) [], pad2 t.day, clock t.hour t.minute t.second, zone,
        Py.natStr t.year] = [monthNames.getD (t.month - 1) [], pad2 t.day, clock t.hour t.minute t.second, zone, Py.natStr t.year] := by
      unfold dropDay
      exact if_pos (.inr d2)
    simp only [e1, unhyphen, addZone]
    unfold fields
    rw [if_neg (by simp only [m2, hdw.1, hcw.1, or_self, not_false_eq_true])]
    unfold dayMonth
    rw [lower_digits _ (pad2_digits _ hdb), monthNumber_digits _ (pad2_digits _ hdb), m1]
    simp only [clock_colon t.hour t.minute t.second (by omega), if_true]
    rw [dropComma_id _ hdw.1 (digits_not_mem _ (pad2_digits _ hdb) _ (by decide))]
    simp only
    rw [dropComma_id _ z2 hzc]
    simp only
    rw [if_neg z2]
    unfold finish
    rw [z4]
    simp only [Bool.false_eq_true, if_false]
    rw [dropComma_id _ hcw.1 (clock_no_comma _ _ _ (by omega) (by omega) (by omega))]
    simp only
    rw [clock_split _ _ _ (by omega) (by omega) (by omega)]
    simp only
    rw [numbers_eq _ _ t.year t.day t.month t.hour t.minute t.second zone (Py.intOf_natStr _) (pad2_check t.day hdb).1
      (by omega) (by omega) (by omega), ha, z1]

example : parseDate s%"Sun Nov 06 08:49:37 EST 1994" = .ok (some ⟨1994, 11, 6, 13, 49, 37⟩) ∧
    parseDate s%"Sun, 06 Nov 1994 08:49:37 PDT" = .ok (some ⟨1994, 11, 6, 15, 49, 37⟩) := by
  refine ⟨by decide +kernel, by decide +kernel⟩

example : parseDate s%"Sunday, 06-Nov-94 08:49:37 GMT" = .ok (some ⟨1994, 11, 6, 8, 49, 37⟩) ∧
    parseDate s%"Sun Nov  6 08:49:37 1994" = .ok (some ⟨1994, 11, 6, 8, 49, 37⟩) ∧
    parseDate s%"Sun, 06 Nov 1994 08:49:37 +0130" = .ok (some ⟨1994, 11, 6, 7, 19, 37⟩) := by
  refine ⟨by decide +kernel, by decide +kernel, by decide +kernel⟩

end Verif.Props.DateP
