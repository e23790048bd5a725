import Verif.Model.Views
import Verif.Spec.Json
import Verif.Props.Dispatch
import Verif.Props.Response
import Verif.Props.Application
/-! Property theorems C114 and C115: views whose results are sent as JSON, and views made of classes,
`/repo/verktyg/views.py` lines 65-111. -/
namespace Verif.Props.ViewsP
open Verif Verif.Views Verif.Spec Verif.Spec.Json Verif.Dispatch Verif.Accept

/-! ### What is meant by a result -/

mutual
/-- The JSON value for a result. -/
def meaning : J → Value
  | .null => .null
  | .bool b => .bool b
  | .int i => .num (Py.intStr i)
  | .float t => .num t
  | .nan => .null
  | .inf _ => .null
  | .str s => .str s
  | .arr xs => .arr (meanings xs)
  | .obj kvs => .obj (membersOf kvs)
/-- The JSON values for a list. -/
def meanings : List J → List Value
  | [] => []
  | x :: xs => meaning x :: meanings xs
/-- The members for a dictionary; keys that are not texts become texts. -/
def membersOf : List (Key × J) → List (Str × Value)
  | [] => []
  | (k, v) :: kvs => (k.text, meaning v) :: membersOf kvs
end

mutual
/-- Results without `nan` and infinities, whose floats are written as numbers. -/
def clean : J → Bool
  | .float t => isNumber t
  | .nan => false
  | .inf _ => false
  | .arr xs => cleanAll xs
  | .obj kvs => cleanMembers kvs
  | _ => true
/-- The same for lists. -/
def cleanAll : List J → Bool
  | [] => true
  | x :: xs => clean x && cleanAll xs
/-- The same for dictionaries. -/
def cleanMembers : List (Key × J) → Bool
  | [] => true
  | (_, v) :: kvs => clean v && cleanMembers kvs
end

mutual
/-- A bound for the depth of the reader. -/
def weight : J → Nat
  | .str s => s.length + 2
  | .arr xs => 1 + weightAll xs
  | .obj kvs => 1 + weightMembers kvs
  | _ => 1
/-- The same for lists. -/
def weightAll : List J → Nat
  | [] => 0
  | x :: xs => 1 + weight x + weightAll xs
/-- The same for dictionaries. -/
def weightMembers : List (Key × J) → Nat
  | [] => 0
  | (k, v) :: kvs => 2 + k.text.length + weight v + weightMembers kvs
end

/-! ### White space -/

theorem skip_append {w : Str} (h : ∀ c ∈ w, isWs c = true) (s : Str) : skipWs (w ++ s) = skipWs s := by
  induction w with
  | nil => rfl
  | cons c cs ih =>
    unfold skipWs at *
    rw [List.cons_append, List.dropWhile_cons_of_pos (h c (.head _)), ih fun x hx => h x (.tail _ hx)]

theorem skip_cons {c : Char} (h : isWs c = false) (s : Str) : skipWs (c :: s) = c :: s := by
  unfold skipWs
  rw [List.dropWhile_cons_of_neg (by simp [h])]

theorem value_skip {w : Str} (h : ∀ c ∈ w, isWs c = true) (n : Nat) (s : Str) : value n (w ++ s) = value n s := by
  cases n with
  | zero => simp [value]
  | succ n => simp only [value, skip_append h]

/-! ### Texts -/

theorem hexVal_hexDigit : ∀ k < 16, hexVal (hexDigit k) = some k := by decide

theorem hex4_uEscape (n : Nat) (h : n < 65536) (t : Str) :
    hex4 (hexDigit (n / 4096 % 16) :: hexDigit (n / 256 % 16) :: hexDigit (n / 16 % 16) :: hexDigit (n % 16) :: t) = some (n, t) := by
  simp only [hex4, hexVal_hexDigit _ (Nat.mod_lt _ (by decide : 0 < 16))]
  congr 2
  omega

theorem chars_u (n : Nat) (t r : Str) (x : Char) (h : unicode t = some (x, r)) :
    chars (n + 1) ('\\' :: 'u' :: t) = (chars n r).map fun q => (x :: q.1, q.2) := by
  rw [chars]
  simp [h]

theorem char_range (c : Char) : c.toNat < 0xd800 ∨ (0xdfff < c.toNat ∧ c.toNat < 0x110000) := by
  have := c.valid
  rcases this with h | h
  · exact .inl h
  · exact .inr h

theorem uEscape_append (n : Nat) (t : Str) : uEscape n ++ t = '\\' :: 'u' :: hexDigit (n / 4096 % 16) :: hexDigit (n / 256 % 16) ::
    hexDigit (n / 16 % 16) :: hexDigit (n % 16) :: t := rfl

theorem unicode_pair (a b : Nat) (ha : 0xd800 ≤ a ∧ a < 0xdc00) (hb : 0xdc00 ≤ b ∧ b ≤ 0xdfff) (t : Str) :
    unicode (hexDigit (a / 4096 % 16) :: hexDigit (a / 256 % 16) :: hexDigit (a / 16 % 16) :: hexDigit (a % 16) ::
      '\\' :: 'u' :: hexDigit (b / 4096 % 16) :: hexDigit (b / 256 % 16) :: hexDigit (b / 16 % 16) :: hexDigit (b % 16) :: t) =
    some (Char.ofNat (0x10000 + (a - 0xd800) * 0x400 + (b - 0xdc00)), t) := by
  unfold unicode
  rw [hex4_uEscape a (by omega)]
  simp only
  rw [if_neg (by omega), hex4_uEscape b (by omega)]
  simp only
  rw [if_pos (by omega)]

theorem chars_escape (c : Char) (n : Nat) (t : Str) :
    chars (n + 1) (escape c ++ t) = (chars n t).map fun q => (c :: q.1, q.2) := by
  unfold escape
  by_cases h1 : c = '"'
  · subst h1; rfl
  rw [if_neg h1]
  by_cases h2 : c = '\\'
  · subst h2; rfl
  rw [if_neg h2]
  by_cases h3 : c = '\n'
  · subst h3; rfl
  rw [if_neg h3]
  by_cases h4 : c = '\r'
  · subst h4; rfl
  rw [if_neg h4]
  by_cases h5 : c = '\t'
  · subst h5; rfl
  rw [if_neg h5]
  by_cases h6 : c.toNat = 12
  · rw [if_pos h6]
    have : c = Char.ofNat 12 := by rw [← h6, Char.ofNat_toNat]
    subst this; rfl
  rw [if_neg h6]
  by_cases h7 : c.toNat = 8
  · rw [if_pos h7]
    have : c = Char.ofNat 8 := by rw [← h7, Char.ofNat_toNat]
    subst this; rfl
  rw [if_neg h7]
  by_cases h8 : 32 ≤ c.toNat ∧ c.toNat ≤ 126
  · rw [if_pos h8, List.singleton_append]
    have : ¬ c.toNat < 32 := by omega
    simp [chars, h1, h2, this]
  rw [if_neg h8]
  by_cases h9 : c.toNat < 0x10000
  · rw [if_pos h9, uEscape_append]
    refine chars_u n _ t c ?_
    unfold unicode
    rw [hex4_uEscape _ h9]
    simp only
    rw [if_pos (by have := char_range c; omega), Char.ofNat_toNat]
  · rw [if_neg h9, List.append_assoc, uEscape_append, uEscape_append]
    have hr := char_range c
    obtain ⟨a, ha⟩ : ∃ a, a = 0xd800 + (c.toNat - 0x10000) / 0x400 := ⟨_, rfl⟩
    obtain ⟨b, hb⟩ : ∃ b, b = 0xdc00 + (c.toNat - 0x10000) % 0x400 := ⟨_, rfl⟩
    rw [← ha, ← hb]
    refine chars_u n _ t c ?_
    rw [unicode_pair a b (by omega) (by omega)]
    refine congrArg (fun x => some (x, t)) ?_
    obtain ⟨m, hm⟩ : ∃ m, m = 0x10000 + (a - 0xd800) * 0x400 + (b - 0xdc00) := ⟨_, rfl⟩
    rw [← hm, show m = c.toNat by omega, Char.ofNat_toNat]

theorem chars_text (s : Str) : ∀ (n : Nat) (rest : Str), s.length < n →
    chars n (s.flatMap escape ++ '"' :: rest) = some (s, rest) := by
  induction s with
  | nil =>
    intro n rest h
    obtain ⟨m, rfl⟩ : ∃ m, n = m + 1 := ⟨n - 1, by simp at h; omega⟩
    rfl
  | cons c cs ih =>
    intro n rest h
    obtain ⟨m, rfl⟩ : ∃ m, n = m + 1 := ⟨n - 1, by simp at h; omega⟩
    rw [List.flatMap_cons, List.append_assoc, chars_escape, ih m rest (by simp at h; omega)]
    rfl

/-! ### Numbers -/

/-- The text after a value: nothing that continues a number. -/
def Stop (rest : Str) : Prop := ∀ c, rest.head? = some c → numChar c = false

theorem take_num {t rest : Str} (ht : ∀ c ∈ t, numChar c = true) (hr : Stop rest) :
    (t ++ rest).takeWhile numChar = t ∧ (t ++ rest).dropWhile numChar = rest := by
  induction t with
  | nil =>
    cases rest with
    | nil => exact ⟨rfl, rfl⟩
    | cons c cs =>
      have := hr c rfl
      simp [this]
  | cons c cs ih =>
    obtain ⟨h1, h2⟩ := ih fun x hx => ht x (.tail _ hx)
    have hc := ht c (.head _)
    simp [hc, h1, h2]

theorem isNumber_all {t : Str} (h : isNumber t = true) : ∀ c ∈ t, numChar c = true := by
  unfold isNumber at h
  rw [Bool.and_eq_true] at h
  exact List.all_eq_true.1 h.1

theorem isNumber_ne {t : Str} (h : isNumber t = true) : t ≠ [] := by
  rintro rfl
  simp [isNumber, isUnsigned] at h

theorem numChar_toNat {c : Char} (h : numChar c = true) :
    (48 ≤ c.toNat ∧ c.toNat ≤ 57) ∨ c = '-' ∨ c = '+' ∨ c = '.' ∨ c = 'e' ∨ c = 'E' := by
  simpa [numChar, isDigit, or_assoc] using h

theorem value_number {t rest : Str} (h : isNumber t = true) (hr : Stop rest) (n : Nat) (hn : 0 < n) :
    value n (t ++ rest) = some (.num t, rest) := by
  obtain ⟨m, rfl⟩ : ∃ m, n = m + 1 := ⟨n - 1, by omega⟩
  obtain ⟨h1, h2⟩ := take_num (isNumber_all h) hr
  cases t with
  | nil => exact absurd rfl (isNumber_ne h)
  | cons c cs =>
    have hc := numChar_toNat (isNumber_all h c (.head _))
    have hne : isWs c = false ∧ c ≠ '"' ∧ c ≠ '[' ∧ c ≠ '{' ∧ c ≠ 'n' ∧ c ≠ 't' ∧ c ≠ 'f' := by
      rcases hc with hc | rfl | rfl | rfl | rfl | rfl
      · refine ⟨?_, ?_⟩
        · unfold isWs
          simp only [Bool.or_eq_false_iff, beq_eq_false_iff_ne]
          refine ⟨⟨⟨?_, ?_⟩, ?_⟩, ?_⟩ <;> (rintro rfl; revert hc; decide)
        · refine ⟨?_, ?_, ?_, ?_, ?_, ?_⟩ <;> (rintro rfl; revert hc; decide)
      all_goals decide
    obtain ⟨k0, k1, k2, k3, k4, k5, k6⟩ := hne
    have hs : scalar (c :: cs ++ rest) = some (.num (c :: cs), rest) := by
      unfold scalar
      rw [if_neg (by simp [Ne.symm k4]), if_neg (by simp [Ne.symm k5]), if_neg (by simp [Ne.symm k6]), h1, h2, if_pos h]
    rw [value, List.cons_append, skip_cons k0]
    simp only [if_neg k1, if_neg k2, if_neg k3]
    exact hs

theorem isDigit_of {c : Char} (h : Py.IsDig c) : isDigit c = true := by
  simpa [isDigit, Py.IsDig] using h

theorem natStr_head (n : Nat) (h : 0 < n) : ∃ c cs, Py.natStr n = c :: cs ∧ c ≠ '0' := by
  induction n using Nat.strongRecOn with
  | _ n ih =>
    rw [Py.natStr]
    by_cases h10 : n < 10
    · rw [if_pos h10]
      refine ⟨_, [], rfl, ?_⟩
      have : ∀ m < 10, 0 < m → Char.ofNat (48 + m) ≠ '0' := by decide
      exact this n h10 h
    · rw [if_neg h10]
      obtain ⟨c, cs, h1, h2⟩ := ih (n / 10) (by omega) (by omega)
      exact ⟨c, cs ++ [Char.ofNat (48 + n % 10)], by rw [h1]; rfl, h2⟩

theorem drop_digits {s : Str} (h : ∀ c ∈ s, isDigit c = true) : s.dropWhile isDigit = [] := by
  induction s with
  | nil => rfl
  | cons c cs ih => rw [List.dropWhile_cons_of_pos (h c (.head _)), ih fun x hx => h x (.tail _ hx)]

theorem isUnsigned_natStr (n : Nat) : isUnsigned (Py.natStr n) = true := by
  by_cases h : n = 0
  · subst h
    decide +kernel
  · obtain ⟨c, cs, h1, h2⟩ := natStr_head n (by omega)
    have hd : ∀ x ∈ c :: cs, isDigit x = true := fun x hx => isDigit_of (Py.natStr_digits n x (h1 ▸ hx))
    rw [h1]
    simp only [isUnsigned, beq_eq_false_iff_ne.2 h2, hd c (.head _), drop_digits fun x hx => hd x (.tail _ hx), isFrac]
    rfl

theorem all_natStr (n : Nat) : (Py.natStr n).all numChar = true := by
  rw [List.all_eq_true]
  intro c hc
  simp [numChar, isDigit_of (Py.natStr_digits n c hc)]

theorem isNumber_intStr (i : Int) : isNumber (Py.intStr i) = true := by
  cases i with
  | ofNat n =>
    show isNumber (Py.natStr n) = true
    have h1 := isUnsigned_natStr n
    have h2 := all_natStr n
    have h3 := Py.natStr_digits n
    unfold isNumber
    rw [h2, Bool.true_and]
    split
    · rename_i r hr
      rw [hr] at h3
      have := h3 '-' (.head _)
      simp [Py.IsDig] at this
    · exact h1
  | negSucc n =>
    show isNumber ('-' :: Py.natStr (n + 1)) = true
    unfold isNumber
    rw [List.all_cons, all_natStr]
    exact isUnsigned_natStr (n + 1)

/-! ### Reading what is written -/

/-- Styles that add white space only. -/
structure Plain (st : Style) : Prop where
  line : ∀ n, ∀ c ∈ st.line n, isWs c = true
  colon : ∃ w, st.colon = ':' :: w ∧ ∀ c ∈ w, isWs c = true

theorem indented_plain : Plain indented where
  line := by
    intro n c hc
    rcases List.mem_cons.1 hc with rfl | hc
    · rfl
    · rw [(List.mem_replicate.1 hc).2]; rfl
  colon := ⟨[' '], rfl, by decide⟩

theorem compact_plain : Plain compact where
  line := by intro n c hc; cases hc
  colon := ⟨[], rfl, by decide⟩

theorem stop_ws {w rest : Str} (h : ∀ c ∈ w, isWs c = true) (hr : Stop rest) : Stop (w ++ rest) := by
  cases w with
  | nil => exact hr
  | cons c cs =>
    intro x hx
    simp at hx
    subst hx
    have := h c (.head _)
    simp only [isWs, Bool.or_eq_true, beq_iff_eq] at this
    rcases this with ((rfl | rfl) | rfl) | rfl <;> decide

theorem stop_cons {c : Char} (h : numChar c = false) (rest : Str) : Stop (c :: rest) := by
  intro x hx
  simp at hx
  rw [← hx]
  exact h

theorem value_quoted (s : Str) (n : Nat) (rest : Str) (h : s.length + 2 ≤ n) :
    value n (quoted s ++ rest) = some (.str s, rest) := by
  obtain ⟨m, rfl⟩ : ∃ m, n = m + 1 := ⟨n - 1, by omega⟩
  unfold quoted
  rw [List.cons_append, List.append_assoc, value, skip_cons (by decide)]
  simp only [if_true]
  rw [show s.flatMap escape ++ (['"'] ++ rest) = s.flatMap escape ++ '"' :: rest from rfl, chars_text s m rest (by omega)]
  rfl

theorem tailItems_stop (st : Style) (l : Nat) (xs : List J) (rest : Str) (hr : Stop rest) : Stop (tailItems st l xs ++ rest) := by
  cases xs with
  | nil => simpa [tailItems] using hr
  | cons x xs => rw [tailItems]; exact stop_cons (by decide) _

theorem tailMembers_stop (st : Style) (l : Nat) (xs : List (Key × J)) (rest : Str) (hr : Stop rest) :
    Stop (tailMembers st l xs ++ rest) := by
  cases xs with
  | nil => simpa [tailMembers] using hr
  | cons x xs => obtain ⟨k, v⟩ := x; rw [tailMembers]; exact stop_cons (by decide) _

/-- The first character of a value. -/
theorem dumps_head (st : Style) (l : Nat) (v : J) (hc : clean v = true) (rest : Str) :
    ∃ c r, dumps st l v ++ rest = c :: r ∧ isWs c = false ∧ c ≠ ']' ∧ c ≠ '}' := by
  have num : ∀ t : Str, isNumber t = true → ∃ c r, t ++ rest = c :: r ∧ isWs c = false ∧ c ≠ ']' ∧ c ≠ '}' := by
    intro t ht
    cases t with
    | nil => exact absurd rfl (isNumber_ne ht)
    | cons c cs =>
      refine ⟨c, cs ++ rest, rfl, ?_⟩
      rcases numChar_toNat (isNumber_all ht c (.head _)) with h | rfl | rfl | rfl | rfl | rfl
      · refine ⟨?_, ?_, ?_⟩
        · unfold isWs
          simp only [Bool.or_eq_false_iff, beq_eq_false_iff_ne]
          refine ⟨⟨⟨?_, ?_⟩, ?_⟩, ?_⟩ <;> (rintro rfl; revert h; decide)
        · rintro rfl; revert h; decide
        · rintro rfl; revert h; decide
      all_goals decide
  cases v with
  | null => exact ⟨'n', _, rfl, by decide⟩
  | bool b => cases b <;> exact ⟨_, _, rfl, by decide⟩
  | int i => rw [dumps]; exact num _ (isNumber_intStr i)
  | float t => rw [dumps]; exact num _ (by simpa [clean] using hc)
  | nan => simp [clean] at hc
  | inf b => simp [clean] at hc
  | str s => rw [dumps]; exact ⟨'"', _, rfl, by decide⟩
  | arr xs =>
    cases xs with
    | nil => rw [dumps]; exact ⟨'[', _, rfl, by decide⟩
    | cons x xs => rw [dumps]; exact ⟨'[', _, rfl, by decide⟩
  | obj kvs =>
    cases kvs with
    | nil => rw [dumps]; exact ⟨'{', _, rfl, by decide⟩
    | cons x xs => obtain ⟨k, v⟩ := x; rw [dumps]; exact ⟨'{', _, rfl, by decide⟩

mutual
theorem value_dumps {st : Style} (hst : Plain st) : ∀ (v : J) (l n : Nat) (rest : Str), clean v = true → weight v ≤ n → Stop rest →
    value n (dumps st l v ++ rest) = some (meaning v, rest)
  | .null, l, n, rest, _, hn, _ => by
    obtain ⟨m, rfl⟩ : ∃ m, n = m + 1 := ⟨n - 1, by simp [weight] at hn; omega⟩
    simp [dumps, value, skipWs, isWs, scalar, meaning]
  | .bool b, l, n, rest, _, hn, _ => by
    obtain ⟨m, rfl⟩ : ∃ m, n = m + 1 := ⟨n - 1, by simp [weight] at hn; omega⟩
    cases b <;> simp [dumps, value, skipWs, isWs, scalar, meaning]
  | .int i, l, n, rest, _, hn, hr => by
    rw [dumps, meaning]
    exact value_number (isNumber_intStr i) hr n (by simp [weight] at hn; omega)
  | .float t, l, n, rest, hc, hn, hr => by
    rw [dumps, meaning]
    exact value_number (by simpa [clean] using hc) hr n (by simp [weight] at hn; omega)
  | .nan, l, n, rest, hc, hn, hr => by simp [clean] at hc
  | .inf _, l, n, rest, hc, hn, hr => by simp [clean] at hc
  | .str s, l, n, rest, _, hn, _ => by
    rw [dumps, meaning]
    exact value_quoted s n rest (by simpa [weight] using hn)
  | .arr [], l, n, rest, _, hn, _ => by
    obtain ⟨m, rfl⟩ : ∃ m, n = m + 1 := ⟨n - 1, by simp [weight] at hn; omega⟩
    simp [dumps, value, skipWs, isWs, meaning, meanings]
  | .arr (x :: xs), l, n, rest, hc, hn, hr => by
    obtain ⟨m, rfl⟩ : ∃ m, n = m + 1 := ⟨n - 1, by simp [weight, weightAll] at hn; omega⟩
    have hi := items_dumps hst (x :: xs) x xs rfl (l + 1) m (st.line l) rest (by simpa [clean] using hc)
      (by simp only [weight] at hn; omega) (hst.line l)
    have hx : clean x = true := by
      simp [clean, cleanAll] at hc
      exact hc.1
    obtain ⟨c, r, h1, h2, h3, h4⟩ := dumps_head st (l + 1) x hx (tailItems st (l + 1) xs ++ (st.line l ++ s%"]") ++ rest)
    have e : dumps st l (.arr (x :: xs)) ++ rest =
        '[' :: (st.line (l + 1) ++ (dumps st (l + 1) x ++ (tailItems st (l + 1) xs ++ (st.line l ++ s%"]") ++ rest))) := by
      rw [dumps]
      simp
    rw [e, value, skip_cons (by decide)]
    simp only [if_neg (by decide : ¬ '[' = '"'), if_true]
    rw [if_neg, show (tailItems st (l + 1) xs ++ (st.line l ++ s%"]") ++ rest) = tailItems st (l + 1) xs ++ (st.line l ++ ']' :: rest) by simp,
      hi, meaning]
    · rfl
    · rw [skip_append (hst.line _), h1, skip_cons h2]
      simp [h3]
  | .obj [], l, n, rest, _, hn, _ => by
    obtain ⟨m, rfl⟩ : ∃ m, n = m + 1 := ⟨n - 1, by simp [weight] at hn; omega⟩
    simp [dumps, value, skipWs, isWs, meaning, membersOf]
  | .obj ((k, v) :: kvs), l, n, rest, hc, hn, hr => by
    obtain ⟨m, rfl⟩ : ∃ m, n = m + 1 := ⟨n - 1, by simp [weight, weightMembers] at hn; omega⟩
    have hi := members_dumps hst ((k, v) :: kvs) k v kvs rfl (l + 1) m (st.line l) rest (by simpa [clean] using hc)
      (by simp only [weight] at hn; omega) (hst.line l)
    have e : dumps st l (.obj ((k, v) :: kvs)) ++ rest =
        '{' :: (st.line (l + 1) ++ (quoted k.text ++ (st.colon ++ (dumps st (l + 1) v ++
          (tailMembers st (l + 1) kvs ++ (st.line l ++ '}' :: rest)))))) := by
      rw [dumps]
      simp
    rw [e, value, skip_cons (by decide)]
    simp only [if_neg (by decide : ¬ '{' = '"'), if_neg (by decide : ¬ '{' = '['), if_true]
    rw [if_neg, hi, meaning]
    · rfl
    · rw [skip_append (hst.line _)]
      unfold quoted
      rw [List.cons_append, skip_cons (by decide)]
      simp
theorem items_dumps {st : Style} (hst : Plain st) : ∀ (all : List J) (x : J) (xs : List J), all = x :: xs → ∀ (l n : Nat) (w rest : Str),
    cleanAll all = true → weightAll all ≤ n → (∀ c ∈ w, isWs c = true) →
    items n (st.line l ++ (dumps st l x ++ (tailItems st l xs ++ (w ++ ']' :: rest)))) = some (meanings all, rest)
  | [], x, xs, h, _, _, _, _, _, _, _ => by cases h
  | y :: ys, x, xs, h, l, n, w, rest, hc, hn, hw => by
    obtain ⟨rfl, rfl⟩ : y = x ∧ ys = xs := by simpa using h
    obtain ⟨m, rfl⟩ : ∃ m, n = m + 1 := ⟨n - 1, by simp [weightAll] at hn; omega⟩
    simp only [cleanAll, Bool.and_eq_true] at hc
    simp only [weightAll] at hn
    have hv := value_dumps hst y l m (tailItems st l ys ++ (w ++ ']' :: rest)) hc.1 (by omega)
      (tailItems_stop _ _ _ _ (stop_ws hw (stop_cons (by decide) _)))
    rw [items, value_skip (hst.line l), hv]
    simp only
    match ys, hc, hn with
    | [], _, _ =>
      rw [tailItems, List.nil_append, skip_append hw, skip_cons (by decide)]
      simp [meanings]
    | z :: zs, hc, hn =>
      have hi := items_dumps hst (z :: zs) z zs rfl l m w rest hc.2 (by omega) hw
      rw [tailItems, List.cons_append, skip_cons (by decide)]
      simp only [List.append_assoc, hi]
      simp [meanings]
theorem members_dumps {st : Style} (hst : Plain st) : ∀ (all : List (Key × J)) (k : Key) (v : J) (kvs : List (Key × J)),
    all = (k, v) :: kvs → ∀ (l n : Nat) (w rest : Str),
    cleanMembers all = true → weightMembers all ≤ n → (∀ c ∈ w, isWs c = true) →
    members n (st.line l ++ (quoted k.text ++ (st.colon ++ (dumps st l v ++ (tailMembers st l kvs ++ (w ++ '}' :: rest)))))) =
      some (membersOf all, rest)
  | [], k, v, kvs, h, _, _, _, _, _, _, _ => by cases h
  | (k', y) :: ys, k, v, kvs, h, l, n, w, rest, hc, hn, hw => by
    obtain ⟨⟨rfl, rfl⟩, rfl⟩ : (k' = k ∧ y = v) ∧ ys = kvs := by simpa using h
    obtain ⟨m, rfl⟩ : ∃ m, n = m + 1 := ⟨n - 1, by simp [weightMembers] at hn; omega⟩
    simp only [cleanMembers, Bool.and_eq_true] at hc
    simp only [weightMembers] at hn
    have hv := value_dumps hst y l m (tailMembers st l ys ++ (w ++ '}' :: rest)) hc.1 (by omega)
      (tailMembers_stop _ _ _ _ (stop_ws hw (stop_cons (by decide) _)))
    obtain ⟨cw, hcw, hws⟩ := hst.colon
    have hq : ∀ t : Str, quoted k'.text ++ t = '"' :: (k'.text.flatMap escape ++ '"' :: t) := by intro t; simp [quoted]
    rw [members, skip_append (hst.line l), hq, skip_cons (by decide)]
    simp only [chars_text k'.text m _ (by omega)]
    rw [hcw, List.cons_append, skip_cons (by decide)]
    simp only [value_skip hws, hv]
    match ys, hc, hn with
    | [], _, _ =>
      rw [tailMembers, List.nil_append, skip_append hw, skip_cons (by decide)]
      simp [membersOf]
    | (k2, z) :: zs, hc, hn =>
      have hi := members_dumps hst ((k2, z) :: zs) k2 z zs rfl l m w rest hc.2 (by omega) hw
      rw [tailMembers, List.cons_append, skip_cons (by decide)]
      rw [hcw] at hi
      simp only [List.append_assoc, hcw, hi]
      simp [membersOf]
end

theorem read_dumps {st : Style} (hst : Plain st) (v : J) (hc : clean v = true) (n : Nat) (hn : weight v ≤ n) :
    Json.read n (dumps st 0 v) = some (meaning v) := by
  have h := value_dumps hst v 0 n [] hc hn (fun c h => by cases h)
  rw [List.append_nil] at h
  unfold Json.read
  rw [h]
  rfl

/-! ### The bytes -/

/-- A text of ASCII characters. -/
def Ascii (s : Str) : Prop := ∀ c ∈ s, c.toNat < 128

theorem ascii_append {a b : Str} (ha : Ascii a) (hb : Ascii b) : Ascii (a ++ b) := by
  intro c hc
  rcases List.mem_append.1 hc with h | h
  · exact ha c h
  · exact hb c h

theorem ascii_cons {c : Char} {s : Str} (hc : c.toNat < 128) (hs : Ascii s) : Ascii (c :: s) := by
  intro x hx
  rcases List.mem_cons.1 hx with rfl | h
  · exact hc
  · exact hs x h

theorem ascii_nil : Ascii [] := by intro c hc; cases hc

theorem hexDigit_ascii : ∀ k < 16, (hexDigit k).toNat < 128 := by decide

theorem uEscape_ascii (n : Nat) : Ascii (uEscape n) := by
  have h : ∀ k, (hexDigit (k % 16)).toNat < 128 := fun k => hexDigit_ascii _ (Nat.mod_lt _ (by decide))
  exact ascii_cons (by decide) (ascii_cons (by decide) (ascii_cons (h _) (ascii_cons (h _) (ascii_cons (h _) (ascii_cons (h _) ascii_nil)))))

theorem escape_ascii (c : Char) : Ascii (escape c) := by
  unfold escape
  split
  · unfold Ascii; decide
  split
  · unfold Ascii; decide
  split
  · unfold Ascii; decide
  split
  · unfold Ascii; decide
  split
  · unfold Ascii; decide
  split
  · unfold Ascii; decide
  split
  · unfold Ascii; decide
  split
  · exact ascii_cons (by omega) ascii_nil
  split
  · exact uEscape_ascii _
  · exact ascii_append (uEscape_ascii _) (uEscape_ascii _)

theorem quoted_ascii (s : Str) : Ascii (quoted s) := by
  refine ascii_cons (by decide) (ascii_append ?_ (ascii_cons (by decide) ascii_nil))
  intro c hc
  obtain ⟨x, _, hx⟩ := List.mem_flatMap.1 hc
  exact escape_ascii x c hx

theorem number_ascii {t : Str} (h : isNumber t = true) : Ascii t := by
  intro c hc
  rcases numChar_toNat (isNumber_all h c hc) with h | rfl | rfl | rfl | rfl | rfl
  · omega
  all_goals decide

theorem ws_ascii {w : Str} (h : ∀ c ∈ w, isWs c = true) : Ascii w := by
  intro c hc
  have := h c hc
  simp only [isWs, Bool.or_eq_true, beq_iff_eq] at this
  rcases this with ((rfl | rfl) | rfl) | rfl <;> decide

mutual
theorem dumps_ascii {st : Style} (hst : Plain st) : ∀ (v : J) (l : Nat), clean v = true → Ascii (dumps st l v)
  | .null, _, _ => by rw [dumps]; unfold Ascii; decide
  | .bool b, _, _ => by rw [dumps]; cases b <;> (unfold Ascii; decide)
  | .int i, _, _ => by rw [dumps]; exact number_ascii (isNumber_intStr i)
  | .float t, _, hc => by rw [dumps]; exact number_ascii (by simpa [clean] using hc)
  | .nan, _, hc => by simp [clean] at hc
  | .inf _, _, hc => by simp [clean] at hc
  | .str s, _, _ => by rw [dumps]; exact quoted_ascii s
  | .arr [], _, _ => by rw [dumps]; unfold Ascii; decide
  | .arr (x :: xs), l, hc => by
    simp only [clean, cleanAll, Bool.and_eq_true] at hc
    rw [dumps]
    exact ascii_cons (by decide) (ascii_append (ws_ascii (hst.line _)) (ascii_append (dumps_ascii hst x _ hc.1)
      (ascii_append (tailItems_ascii hst xs _ hc.2) (ascii_append (ws_ascii (hst.line _)) (by unfold Ascii; decide)))))
  | .obj [], _, _ => by rw [dumps]; unfold Ascii; decide
  | .obj ((k, v) :: kvs), l, hc => by
    simp only [clean, cleanMembers, Bool.and_eq_true] at hc
    obtain ⟨w, hw, hws⟩ := hst.colon
    rw [dumps, hw]
    exact ascii_cons (by decide) (ascii_append (ws_ascii (hst.line _)) (ascii_append (quoted_ascii _)
      (ascii_append (ascii_cons (by decide) (ws_ascii hws)) (ascii_append (dumps_ascii hst v _ hc.1)
      (ascii_append (tailMembers_ascii hst kvs _ hc.2) (ascii_append (ws_ascii (hst.line _)) (by unfold Ascii; decide)))))))
theorem tailItems_ascii {st : Style} (hst : Plain st) : ∀ (xs : List J) (l : Nat), cleanAll xs = true → Ascii (tailItems st l xs)
  | [], _, _ => by rw [tailItems]; exact ascii_nil
  | x :: xs, l, hc => by
    simp only [cleanAll, Bool.and_eq_true] at hc
    rw [tailItems]
    exact ascii_cons (by decide) (ascii_append (ws_ascii (hst.line _)) (ascii_append (dumps_ascii hst x _ hc.1)
      (tailItems_ascii hst xs _ hc.2)))
theorem tailMembers_ascii {st : Style} (hst : Plain st) : ∀ (kvs : List (Key × J)) (l : Nat), cleanMembers kvs = true →
    Ascii (tailMembers st l kvs)
  | [], _, _ => by rw [tailMembers]; exact ascii_nil
  | (k, v) :: kvs, l, hc => by
    simp only [cleanMembers, Bool.and_eq_true] at hc
    obtain ⟨w, hw, hws⟩ := hst.colon
    rw [tailMembers, hw]
    exact ascii_cons (by decide) (ascii_append (ws_ascii (hst.line _)) (ascii_append (quoted_ascii _)
      (ascii_append (ascii_cons (by decide) (ws_ascii hws)) (ascii_append (dumps_ascii hst v _ hc.1)
      (tailMembers_ascii hst kvs _ hc.2)))))
end

/-! ### C114: what JSON views send -/

/-- The bytes of an ASCII text. -/
def asciiBytes (t : Str) : Bytes := t.map fun c => UInt8.ofNat c.toNat

/-- The result of a JSON view is sent as a JSON text for it, with its type and length, with or without debugging.
(`_partial`: results with `nan` or infinities are not written as JSON, see `C114_nan_false`.) -/
theorem C114_sent_partial (cfg : Response.Cfg) (hl : IriP.LowerOk cfg.lower) (ha : cfg.autoLength = true)
    (he : ∀ s, Ascii s → cfg.encode s = .ok (asciiBytes s)) (debug : Bool) (v : J) (hv : clean v = true) :
    ∃ t status : Str, (∀ n, weight v ≤ n → Json.read n t = some (meaning v)) ∧ Ascii t ∧
      jsonResponse cfg (some debug) (.value v) =
        .ok ⟨[(s%"Content-Type", s%"application/json"), (s%"Content-Length", Py.natStr t.length)], s%"200 " ++ status, 200,
          .list [.bytes (asciiBytes t)], [], false⟩ := by
  have hst : Plain (if debug then indented else compact) := by
    cases debug
    · exact compact_plain
    · exact indented_plain
  have hasc := dumps_ascii hst v 0 hv
  obtain ⟨l1, l2, l3⟩ := AppP.low_names hl
  refine ⟨dumps (if debug then indented else compact) 0 v, (match cfg.reason 200 with | some t => t | none => s%"UNKNOWN"),
    fun n hn => read_dumps hst v hv n hn, hasc, ?_⟩
  unfold jsonResponse Response.init
  simp only
  have e1 : Headers.set cfg.lower [] s%"Content-Type" s%"application/json" [] =
      ([(s%"Content-Type", s%"application/json")], .ok ()) := by
    rw [AppP.set_new (by intro p h; cases h) (by unfold LegalValue; decide)]; rfl
  rw [e1]
  simp only [Response.setData, Response.encodeItem, Response.setStatusCode, he _ hasc, Response.setLength, ha, if_true]
  rw [AppP.set_new (k := s%"Content-Length") (by
    intro p h; rw [List.mem_singleton.1 h, l2, l3]; decide) (Resp.natStr_legal _)]
  have h200 : Py.intStr 200 = s%"200" := by decide +kernel
  have hlen : (asciiBytes (dumps (if debug then indented else compact) 0 v)).length =
      (dumps (if debug then indented else compact) 0 v).length := by simp [asciiBytes]
  rw [h200, hlen]
  cases cfg.reason 200 <;> rfl

/-- A result with everything in it. -/
def someResult : J :=
  .obj [(.str s%"café", .arr [.int (-12), .float s%"1.5e-07", .bool true, .null]), (.int 3, .str s%"a\"\n😀"), (.none, .obj [])]

example : clean someResult = true ∧ dumps compact 0 someResult =
    s%"{\"caf\\u00e9\":[-12,1.5e-07,true,null],\"3\":\"a\\\"\\n\\ud83d\\ude00\",\"null\":{}}" ∧
    dumps indented 0 (.arr [.int 1, .obj [(.bool true, .arr [])]]) =
    s%"[\n    1,\n    {\n        \"true\": []\n    }\n]" := by decide +kernel

/-- A configuration for the examples: code points below 256 are bytes. -/
def viewCfg : Response.Cfg where
  lower := IriP.demoLower
  encode s := .ok (asciiBytes s)
  reason n := if n = 200 then some s%"OK" else if n = 204 then some s%"NO CONTENT" else none
  autoLength := true
  implicitSeq := true

example (debug : Bool) : ∃ t status : Str, (∀ n, weight someResult ≤ n → Json.read n t = some (meaning someResult)) ∧ Ascii t ∧
      jsonResponse viewCfg (some debug) (.value someResult) =
        .ok ⟨[(s%"Content-Type", s%"application/json"), (s%"Content-Length", Py.natStr t.length)], s%"200 " ++ status, 200,
          .list [.bytes (asciiBytes t)], [], false⟩ :=
  C114_sent_partial viewCfg IriP.demoLower_ok rfl (fun _ _ => rfl) debug someResult (by decide +kernel)

example : jsonResponse viewCfg (some false) (.value (.obj [(.str s%"a", .int 1)])) =
    .ok ⟨[(s%"Content-Type", s%"application/json"), (s%"Content-Length", s%"7")], s%"200 OK", 200,
      .list [.bytes b%"{\"a\":1}"], [], false⟩ ∧
    jsonResponse viewCfg none .none = .ok ⟨[(s%"Content-Type", s%"text/plain; charset=utf-8")], s%"204 NO CONTENT", 204, .list [], [], false⟩ := by
  decide +kernel

/-- Without a result there is no content, and a response is sent as it is, whatever the application is. -/
theorem C114_none (cfg : Response.Cfg) (debug : Option Bool) (method : Str) (r : Response.Resp) :
    (∃ r0 status, jsonResponse cfg debug .none = .ok r0 ∧ r0.code = 204 ∧ r0.status = s%"204 " ++ status ∧
      (Response.appIter method r0).yields cfg = .ok [] ∧
      ∀ iri absolute h, Response.wsgiHeaders cfg iri absolute r0 = .ok h → Headers.getlist cfg.lower h s%"Content-Length" = [s%"0"]) ∧
    jsonResponse cfg debug (.response r) = .ok r := by
  refine ⟨?_, rfl⟩
  refine ⟨_, (match cfg.reason 204 with | some t => t | none => s%"UNKNOWN"), rfl, rfl, ?_, Resp.C51_no_body cfg method _ (.inr (.inr (.inl rfl))),
    fun iri absolute h hh => Resp.C51_length cfg iri absolute _ (.inr rfl) h hh⟩
  have h204 : Py.intStr 204 = s%"204" := by decide +kernel
  simp only [Response.setStatusCode, h204]
  cases cfg.reason 204 <;> rfl

/-- **Not so**: an application has no attribute `debug` unless a mixin adds one, and without it no JSON view can send
its result. -/
theorem C114_debug_false (cfg : Response.Cfg) (v : J) : jsonResponse cfg none (.value v) = .error .attributeError := rfl

/-- **Not so**: `nan` and infinities are sent as texts which are not JSON, alone or within an array, at any place. -/
theorem C114_nan_false (n : Nat) : Json.read n (dumps compact 0 .nan) = none ∧ Json.read n (dumps indented 0 (.inf false)) = none ∧
    Json.read n (dumps compact 0 (.inf true)) = none ∧ Json.read n (dumps compact 0 (.arr [.nan])) = none := by
  refine ⟨?_, ?_, ?_, ?_⟩
  · cases n <;> rfl
  · cases n <;> rfl
  · cases n <;> rfl
  · match n with
    | 0 => rfl
    | 1 => rfl
    | 2 => rfl
    | n + 3 => rfl

/-- **Not so**: different keys of a dictionary can become the same name of an object. -/
theorem C114_keys_false : ∃ v, clean v = true ∧ v = .obj [(.int 1, .null), (.str s%"1", .bool true)] ∧
    meaning v = .obj [(s%"1", .null), (s%"1", .bool true)] :=
  ⟨_, by decide +kernel, rfl, by
    have : Py.intStr 1 = s%"1" := by decide +kernel
    simp [meaning, membersOf, this, Key.text]⟩

/-- A view that sends JSON answers for its methods, as `application/json`. -/
theorem C114_bound (sel : List Accept.Rep → Except PyErr Accept.Rep) (name : Str) (ms : Dispatch.Methods) (id : Nat) (qs : Accept.Flt)
    (m : Str) (hm : ms.Has m) :
    (exposeJson .empty name ms id qs).lookup sel name m =
      sel [⟨id, some (s%"application/json", none), none, none, qs⟩] := by
  have h := C40_lookup sel [.add 0 (Dispatch.viewBindings name ms (jsonRep id qs))] 0 name m
  have hv := (C40_view name ms (jsonRep id qs) m).1 hm
  have hl : log [.add 0 (Dispatch.viewBindings name ms (jsonRep id qs))] 0 = Dispatch.viewBindings name ms (jsonRep id qs) := by
    simp [log, added]
  rw [hl] at h
  refine (show (exposeJson .empty name ms id qs).lookup sel name m = _ from h).trans ?_
  unfold specLookup
  rw [hv]
  rw [if_neg (by
    intro hall
    have hmem : (⟨name, m, jsonRep id qs⟩ : Dispatch.Binding) ∈ candidates (Dispatch.viewBindings name ms (jsonRep id qs)) name m := by
      rw [hv]; simp
    exact hall _ ((List.mem_filter.1 hmem).1) rfl)]
  simp [jsonRep]

/-! ### C115: class views -/

/-- The methods that class views look for. -/
def classMethods : List Str := [s%"GET", s%"HEAD", s%"POST", s%"PUT", s%"DELETE"]

theorem class_candidates (name : Str) (attrs : List (Str × Accept.Rep)) (m : Str) :
    candidates (classBindings name attrs) name m =
      if m ∈ classMethods then ((Dict.get attrs m).map fun rep => ⟨name, m, rep⟩).toList else [] := by
  have key : ∀ ms : List Str, ms.Nodup →
      candidates (ms.filterMap fun m => (Dict.get attrs m).map fun rep => (⟨name, m, rep⟩ : Dispatch.Binding)) name m =
      if m ∈ ms then ((Dict.get attrs m).map fun rep => (⟨name, m, rep⟩ : Dispatch.Binding)).toList else [] := by
    intro ms
    induction ms with
    | nil => intro _; rfl
    | cons x xs ih =>
      intro hn
      rw [List.nodup_cons] at hn
      have ih' := ih hn.2
      unfold candidates at ih' ⊢
      by_cases hx : m = x
      · subst hx
        rw [if_neg hn.1] at ih'
        cases hg : Dict.get attrs m with
        | none => rw [List.filterMap_cons_none (by simp [hg]), ih']; simp
        | some rep => rw [List.filterMap_cons_some (by simp [hg]; rfl), List.filter_cons_of_pos (by simp), ih']; simp
      · have hm : (m ∈ x :: xs) ↔ m ∈ xs := by simp [hx]
        simp only [hm]
        cases hg : Dict.get attrs x with
        | none => rw [List.filterMap_cons_none (by simp [hg]), ih']
        | some rep => rw [List.filterMap_cons_some (by simp [hg]; rfl), List.filter_cons_of_neg (by simp [Ne.symm hx]), ih']
  exact key _ (by decide)

/-- A class view answers for each of GET, HEAD, POST, PUT and DELETE that it has a method for, with this method; HEAD is
answered by GET where there is no HEAD; other methods are refused. -/
theorem C115_class (sel : List Accept.Rep → Except PyErr Accept.Rep) (name : Str) (attrs : List (Str × Accept.Rep)) (m : Str) :
    let lookup := (Dispatch.Disp.empty.addAll (classBindings name attrs)).lookup sel name m
    (∀ rep, m ∈ classMethods → Dict.get attrs m = some rep → lookup = sel [rep]) ∧
    (∀ rep, m = s%"HEAD" → Dict.get attrs s%"HEAD" = none → Dict.get attrs s%"GET" = some rep → lookup = sel [rep]) ∧
    ((∃ k ∈ classMethods, Dict.get attrs k ≠ none) → (m ∉ classMethods ∨ Dict.get attrs m = none) →
      (m = s%"HEAD" → Dict.get attrs s%"GET" = none) → lookup = .error .methodNotAllowed) ∧
    ((∀ k ∈ classMethods, Dict.get attrs k = none) → lookup = .error .notImplemented) := by
  intro lookup
  have h : lookup = specLookup sel (log [.add 0 (classBindings name attrs)] 0) name m :=
    C40_lookup sel [.add 0 (classBindings name attrs)] 0 name m
  have hl : log [.add 0 (classBindings name attrs)] 0 = classBindings name attrs := by simp [log, added]
  rw [hl] at h
  have hmem : ∀ k ∈ classMethods, Dict.get attrs k ≠ none → ¬ ∀ b ∈ classBindings name attrs, b.name ≠ name := by
    intro k hk hg hall
    cases hr : Dict.get attrs k with
    | none => exact hg hr
    | some rep =>
      exact hall ⟨name, k, rep⟩ (List.mem_filterMap.2 ⟨k, hk, by simp [hr]⟩) rfl
  rw [h]
  unfold specLookup
  rw [class_candidates, class_candidates]
  have hget : s%"GET" ∈ classMethods := by decide
  refine ⟨?_, ?_, ?_, ?_⟩
  · intro rep hm hg
    rw [if_neg (hmem m hm (by simp [hg])), if_pos hm, hg]
    simp
  · intro rep hm hn hg
    subst hm
    rw [if_neg (hmem _ hget (by simp [hg])), hn, hg, if_neg (by simp), if_pos ⟨rfl, by simp [hget]⟩, if_pos hget]
    simp
  · rintro ⟨k, hk, hgk⟩ hm hh
    rw [if_neg (hmem k hk hgk)]
    have e : (if m ∈ classMethods then ((Dict.get attrs m).map fun rep => (⟨name, m, rep⟩ : Dispatch.Binding)).toList else []) = [] := by
      rcases hm with hm | hm
      · rw [if_neg hm]
      · rw [hm]; simp
    rw [e, if_neg (by simp)]
    rw [if_neg]
    rintro ⟨q1, q2⟩
    rw [if_pos hget, hh q1] at q2
    simp at q2
  · intro hall
    rw [if_pos]
    intro b hb
    obtain ⟨k, hk, hk'⟩ := List.mem_filterMap.1 hb
    rw [hall k hk] at hk'
    cases hk'

/-- **Not so**: a class with methods PATCH or OPTIONS, beside others, does not answer for these. -/
theorem C115_patch_false (sel : List Accept.Rep → Except PyErr Accept.Rep) (name : Str) (patch get : Accept.Rep) :
    (Dispatch.Disp.empty.addAll (classBindings name [(s%"PATCH", patch), (s%"GET", get)])).lookup sel name s%"PATCH" =
      .error .methodNotAllowed :=
  (C115_class sel name _ s%"PATCH").2.2.1 ⟨s%"GET", by decide, by simp [Dict.get]⟩ (.inl (by decide)) (fun h => absurd h (by decide))

example (get put : Accept.Rep) : (Dispatch.Disp.empty.addAll (classBindings s%"page" [(s%"GET", get), (s%"PUT", put)])).lookup
    (fun l => match l with | [r] => .ok r | _ => .error .notAcceptable) s%"page" s%"HEAD" = .ok get :=
  (C115_class _ s%"page" [(s%"GET", get), (s%"PUT", put)] s%"HEAD").2.1 get rfl rfl rfl

example : (exposeJson .empty s%"api" .none 1 .one).lookup
    (fun l => Accept.select demoFloat demoMul l (some s%"text/html") none none) s%"api" s%"GET" = .error .notAcceptable := by
  rw [C114_bound _ _ _ _ _ _ (show Dispatch.Methods.Has .none s%"GET" from rfl)]
  decide +kernel

end Verif.Props.ViewsP
