import Verif.Spec.Converters
import Verif.Props.RoutingMatch
import Verif.Props.Urls
import Verif.PyLemmas
/-!
C50: the converters (`/repo/verktyg/routing.py`).
-/
namespace Verif.Props.RoutingP
open Verif Verif.Routing Verif.Spec.Routing

/-! ### texts in URLs -/

theorem utf8_ascii (c : Char) (h : c.toNat < 128) : String.utf8EncodeChar c = [UInt8.ofNat c.toNat] := by
  have : ∀ n, n < 128 → (String.utf8EncodeChar (Char.ofNat n) == [UInt8.ofNat n]) = true := by
    have := (by decide +kernel : (List.range 128).all
      (fun n => String.utf8EncodeChar (Char.ofNat n) == [UInt8.ofNat n]) = true)
    rw [List.all_eq_true] at this
    exact fun n hn => this n (List.mem_range.2 hn)
  have := eq_of_beq (this c.toNat h)
  rwa [Char.ofNat_toNat] at this

theorem utf8_nil : utf8 [] = [] := rfl
theorem utf8_append (a b : Str) : utf8 (a ++ b) = utf8 a ++ utf8 b := by simp [utf8]

theorem byte_char (b : UInt8) (h : b.toNat < 128) : (Char.ofNat b.toNat).toNat = b.toNat := by
  have : Nat.isValidChar b.toNat := by left; omega
  simp [Char.ofNat, this, Char.toNat, Char.ofNatAux]

/-- Bytes of ASCII, written as text and encoded again. -/
theorem utf8_bytes (l : Bytes) (h : ∀ b ∈ l, b.toNat < 128) : utf8 (l.map fun b => Char.ofNat b.toNat) = l := by
  induction l with
  | nil => rfl
  | cons b bs ih =>
    have hb := h b (.head _)
    have ih := ih fun x hx => h x (.tail _ hx)
    unfold utf8 at ih ⊢
    rw [List.map_cons, List.flatMap_cons, ih, utf8_ascii _ (by rw [byte_char b hb]; exact hb), byte_char b hb]
    simp

theorem quote_ascii (safe : List UInt8) (hs : ∀ b ∈ safe, b.toNat < 128) (l : Bytes) :
    ∀ b ∈ Urls.quote safe l, b.toNat < 128 := by
  have ha : ∀ b, Urls.alwaysSafe b = true → b.toNat < 128 := by
    intro b h
    have := Urls.forall_byte (fun b => !Urls.alwaysSafe b || decide (b.toNat < 128)) (by decide +kernel) b
    simpa [h] using this
  induction l with
  | nil => intro b hb; cases hb
  | cons x xs ih =>
    intro b hb
    rw [Urls.quote_cons] at hb
    rcases List.mem_append.1 hb with hb | hb
    · split at hb
      · rename_i hx
        rw [List.mem_singleton.1 hb]
        rcases hx with hx | hx
        · exact ha x hx
        · exact hs x hx
      · simp only [List.mem_cons, List.not_mem_nil, or_false] at hb
        obtain ⟨_, h1, h2⟩ := Urls.hexDigit_spec x
        rcases hb with rfl | rfl | rfl
        · decide
        · exact ha _ h1
        · exact ha _ h2
    · exact ih b hb

theorem quote_decode (safe : List UInt8) (hs : (37 : UInt8) ∉ safe) (l rest : Bytes) :
    Percent.decode [] (Urls.quote safe l ++ rest) = l ++ Percent.decode [] rest := by
  induction l with
  | nil => rfl
  | cons b bs ih =>
    rw [Urls.quote_cons, List.append_assoc]
    split
    · rename_i hb
      have : b ≠ 37 := by
        rintro rfl
        rcases hb with hb | hb
        · exact absurd hb (by decide)
        · exact hs hb
      rw [List.cons_append, List.nil_append, Urls.decode_ne this, ih]
      rfl
    · rw [List.cons_append, List.cons_append, List.cons_append, List.nil_append,
        Urls.decode_esc (Urls.hexDigit_spec b).1, if_neg (by simp), ih]
      rfl

/-- The text `u` of a URL stands for `t`, whatever follows. -/
def Written (u t : Str) : Prop :=
  ∀ rest, Percent.meaning (utf8 (u ++ rest)) = utf8 t ++ Percent.meaning (utf8 rest)

theorem Written.append {u t u' t' : Str} (h : Written u t) (h' : Written u' t') : Written (u ++ u') (t ++ t') := by
  intro rest
  rw [List.append_assoc, h, h', utf8_append, List.append_assoc]

theorem Written.nil : Written [] [] := fun _ => rfl

theorem Written.meaning {u t : Str} (h : Written u t) : Percent.meaning (utf8 u) = utf8 t := by
  have := h []
  simpa [utf8_nil, Percent.meaning, Percent.decode] using this

theorem written_quote (safe : List UInt8) (hs : ∀ b ∈ safe, b.toNat < 128) (hp : (37 : UInt8) ∉ safe) (s : Str) :
    Written (urlquote safe s) s := by
  intro rest
  rw [utf8_append, urlquote, utf8_bytes _ (quote_ascii safe hs _)]
  exact quote_decode safe hp _ _

/-- Text without percent signs stands for itself. -/
theorem written_plain (s : Str) (h : ∀ c ∈ s, c.toNat < 128 ∧ c ≠ '%') : Written s s := by
  intro rest
  induction s with
  | nil => rfl
  | cons c cs ih =>
    have hc := h c (.head _)
    have ih := ih fun x hx => h x (.tail _ hx)
    have hu : ∀ l, utf8 (c :: l) = UInt8.ofNat c.toNat :: utf8 l := fun l => by
      simp [utf8, utf8_ascii c hc.1]
    rw [List.cons_append, hu, hu]
    unfold Percent.meaning at *
    rw [Urls.decode_ne, ih]
    · rfl
    · intro he
      have h2 := congrArg UInt8.toNat he
      have h3 : c.toNat = 37 := by
        simp at h2
        omega
      apply hc.2
      rw [← Char.ofNat_toNat c, h3]

theorem utf8_high (c : Char) (h : 128 ≤ c.toNat) : ∀ b ∈ String.utf8EncodeChar c, 128 ≤ b.toNat := by
  intro b hb
  have hv : 128 ≤ c.val.toNat := h
  unfold String.utf8EncodeChar at hb
  dsimp only at hb
  rw [if_neg (by omega)] at hb
  split at hb
  · simp only [List.mem_cons, List.not_mem_nil, or_false] at hb
    rcases hb with rfl | rfl <;> simp only [UInt8.toNat_ofNat'] <;> omega
  · split at hb
    · simp only [List.mem_cons, List.not_mem_nil, or_false] at hb
      rcases hb with rfl | rfl | rfl <;> simp only [UInt8.toNat_ofNat'] <;> omega
    · simp only [List.mem_cons, List.not_mem_nil, or_false] at hb
      rcases hb with rfl | rfl | rfl | rfl <;> simp only [UInt8.toNat_ofNat'] <;> omega

theorem urlquote_append (safe : List UInt8) (a b : Str) : urlquote safe (a ++ b) = urlquote safe a ++ urlquote safe b := by
  simp [urlquote, utf8, Urls.quote]

/-- A safe character is left as it is. -/
theorem urlquote_safe (safe : List UInt8) (c : Char) (h : c.toNat < 128) (hs : UInt8.ofNat c.toNat ∈ safe) :
    urlquote safe [c] = [c] := by
  have : utf8 [c] = [UInt8.ofNat c.toNat] := by simp [utf8, utf8_ascii c h]
  rw [urlquote, this, Urls.quote_cons, if_pos (.inr hs)]
  have h2 : (UInt8.ofNat c.toNat).toNat = c.toNat := by rw [UInt8.toNat_ofNat']; omega
  simp [Urls.quote, h2]

/-- The bytes written for a character are not those of another character `x` of the set. -/
theorem urlquote_other (safe : List UInt8) (c x : Char) (hx : x = '/' ∨ x = '|') (h : c ≠ x) : x ∉ urlquote safe [c] := by
  have hxn : x.toNat < 128 ∧ x.toNat ≠ 37 ∧ ∀ b, Urls.alwaysSafe b = true → b.toNat ≠ x.toNat := by
    have : ∀ n, n = 47 ∨ n = 124 → ∀ b, Urls.alwaysSafe b = true → b.toNat ≠ n := by
      intro n hn b hb hbn
      have := Urls.forall_byte (fun b => !Urls.alwaysSafe b || (b.toNat != 47 && b.toNat != 124)) (by decide +kernel) b
      rw [hb] at this
      simp at this
      omega
    rcases hx with rfl | rfl
    · exact ⟨by decide, by decide, this _ (.inl rfl)⟩
    · exact ⟨by decide, by decide, this _ (.inr rfl)⟩
  obtain ⟨h1, h2, h3⟩ := hxn
  intro hm
  simp only [urlquote, List.mem_map] at hm
  obtain ⟨b, hb, hbx⟩ := hm
  have hval : b.toNat = x.toNat := by
    rw [← hbx]
    have : Nat.isValidChar b.toNat := by left; have := b.toNat_lt; omega
    simp [Char.ofNat, this, Char.toNat, Char.ofNatAux]
  simp only [Urls.quote, List.mem_flatten, List.mem_map] at hb
  obtain ⟨l, ⟨y, hy, rfl⟩, hb⟩ := hb
  split at hb
  · rw [List.mem_singleton.1 hb] at hval
    simp only [utf8, List.flatMap_cons, List.flatMap_nil, List.append_nil] at hy
    by_cases hc : c.toNat < 128
    · rw [utf8_ascii c hc, List.mem_singleton] at hy
      rw [hy, UInt8.toNat_ofNat'] at hval
      apply h
      rw [← Char.ofNat_toNat c, ← Char.ofNat_toNat x]
      congr 1
      omega
    · have := utf8_high c (by omega) y hy
      omega
  · simp only [List.mem_cons, List.not_mem_nil, or_false] at hb
    obtain ⟨_, e1, e2⟩ := Urls.hexDigit_spec y
    rcases hb with rfl | rfl | rfl
    · exact h2 hval.symm
    · exact h3 _ e1 hval
    · exact h3 _ e2 hval

theorem urlquote_cons (safe : List UInt8) (c : Char) (s : Str) : urlquote safe (c :: s) = urlquote safe [c] ++ urlquote safe s :=
  urlquote_append safe [c] s

theorem urlquote_ne_nil (safe : List UInt8) (c : Char) : urlquote safe [c] ≠ [] := by
  intro h
  have : utf8 [c] ≠ [] := by simp [utf8, String.utf8EncodeChar_ne_nil]
  obtain ⟨b, bs, hb⟩ := List.exists_cons_of_ne_nil this
  rw [urlquote, hb, Urls.quote_cons] at h
  have := List.map_eq_nil_iff.1 h
  split at this <;> simp at this

/-- Slashes at the beginning are dropped before or after quoting. -/
theorem lstrip_quote (safe : List UInt8) (hs : (47 : UInt8) ∈ safe) (s rest : Str) (h : lstripSlash s ≠ []) :
    lstripSlash (urlquote safe s ++ rest) = urlquote safe (lstripSlash s) ++ rest := by
  induction s with
  | nil => exact absurd rfl h
  | cons c cs ih =>
    by_cases hc : c = '/'
    · subst hc
      rw [urlquote_cons, urlquote_safe safe '/' (by decide) hs]
      simp only [lstripSlash, List.cons_append, List.nil_append, List.dropWhile_cons, beq_self_eq_true, if_true] at ih h ⊢
      exact ih h
    · have h1 : lstripSlash (c :: cs) = c :: cs := by simp [lstripSlash, hc]
      rw [h1, urlquote_cons safe c cs]
      obtain ⟨d, ds, hd⟩ := List.exists_cons_of_ne_nil (urlquote_ne_nil safe c)
      have hne : d ≠ '/' := by
        rintro rfl
        exact urlquote_other safe c '/' (.inl rfl) hc (by rw [hd]; exact .head _)
      rw [hd]
      simp [lstripSlash, hne]

/-! ### numbers -/

theorem natStr_length (k : Nat) : ∀ n, n < 10 ^ (k + 1) → (Py.natStr n).length ≤ k + 1 := by
  induction k with
  | zero => intro n h; rw [Py.natStr, if_pos (by omega)]; simp
  | succ k ih =>
    intro n h
    rw [Py.natStr]
    split
    · simp
    · have := ih (n / 10) (by rw [Nat.div_lt_iff_lt_mul (by omega)]; rw [Nat.pow_succ] at h; exact h)
      simp
      omega

/-- `dec` is the value of decimal digits: less than ten, and as usual for ASCII. -/
structure Decimal (dec : Char → Option Nat) : Prop where
  lt : ∀ c d, dec c = some d → d < 10
  ascii : ∀ d, d < 10 → dec (Char.ofNat (48 + d)) = some d

theorem dec_dig (dec : Char → Option Nat) (hd : Decimal dec) (c : Char) (h : Py.IsDig c) : dec c = some (c.toNat - 48) := by
  obtain ⟨h1, h2⟩ := h
  have := hd.ascii (c.toNat - 48) (by omega)
  rwa [show 48 + (c.toNat - 48) = c.toNat by omega, Char.ofNat_toNat] at this

theorem fold_dig (dec : Char → Option Nat) (hd : Decimal dec) (s : Str) (hs : ∀ c ∈ s, Py.IsDig c) : ∀ a,
    s.foldl (fun n c => n * 10 + (dec c).getD 0) a = s.foldl (fun n x => n * 10 + (x.toNat - 48)) a := by
  induction s with
  | nil => intro a; rfl
  | cons c cs ih =>
    intro a
    rw [List.foldl_cons, List.foldl_cons, dec_dig dec hd c (hs c (.head _)), ih fun x hx => hs x (.tail _ hx)]
    rfl

theorem intD_natStr (dec : Char → Option Nat) (hd : Decimal dec) (n : Nat) : intD dec (Py.natStr n) = n := by
  rw [intD, fold_dig dec hd _ (Py.natStr_digits n), Py.natStr_val]

theorem intD_zeros (dec : Char → Option Nat) (hd : Decimal dec) (k : Nat) (s : Str) :
    intD dec (List.replicate k '0' ++ s) = intD dec s := by
  have h0 : dec '0' = some 0 := hd.ascii 0 (by omega)
  unfold intD
  rw [List.foldl_append]
  congr 1
  induction k with
  | zero => rfl
  | succ k ih => rw [List.replicate_succ, List.foldl_cons, h0]; exact ih

theorem intD_lt (dec : Char → Option Nat) (hd : Decimal dec) (s : Str) (h : ∀ c ∈ s, (dec c).isSome = true) :
    intD dec s < 10 ^ s.length := by
  have key : ∀ (s : Str), (∀ c ∈ s, (dec c).isSome = true) → ∀ a,
      s.foldl (fun n c => n * 10 + (dec c).getD 0) a < (a + 1) * 10 ^ s.length := by
    intro s
    induction s with
    | nil => intro _ a; simp
    | cons c cs ih =>
      intro h a
      have h1 := h c (.head _)
      cases hc : dec c with
      | none => rw [hc] at h1; cases h1
      | some d =>
        have h2 := hd.lt c d hc
        have := ih (fun x hx => h x (.tail _ hx)) (a * 10 + d)
        rw [List.foldl_cons, hc, Option.getD_some, List.length_cons, Nat.pow_succ]
        refine Nat.lt_of_lt_of_le this ?_
        rw [show (a + 1) * (10 ^ cs.length * 10) = ((a + 1) * 10) * 10 ^ cs.length by
          rw [Nat.mul_assoc, Nat.mul_comm 10]]
        exact Nat.mul_le_mul_right _ (by omega)
  have := key s h 0
  simpa [intD] using this

/-! ### UUIDs -/

theorem hexChar_spec (d : Nat) (h : d < 16) : isHex (hexChar d) = true ∧ hexOf (hexChar d) = d ∧ hexChar d ≠ '-' ∧
    (hexChar d).toNat < 128 ∧ hexChar d ≠ '%' := by
  have : (List.range 16).all (fun d => isHex (hexChar d) && hexOf (hexChar d) == d && hexChar d != '-' &&
    decide ((hexChar d).toNat < 128) && hexChar d != '%') = true := by decide +kernel
  have := List.all_eq_true.1 this d (List.mem_range.2 h)
  simp only [Bool.and_eq_true, beq_iff_eq, bne_iff_ne, decide_eq_true_eq] at this
  exact ⟨this.1.1.1.1, this.1.1.1.2, this.1.1.2, this.1.2, this.2⟩

theorem hexDigits_length (k : Nat) : ∀ n, (hexDigits k n).length = k := by
  induction k with
  | zero => intro n; rfl
  | succ k ih => intro n; simp [hexDigits, ih]

theorem hexDigits_mem (k : Nat) : ∀ n, ∀ c ∈ hexDigits k n, ∃ d, d < 16 ∧ c = hexChar d := by
  induction k with
  | zero => intro n c h; cases h
  | succ k ih =>
    intro n c h
    rcases List.mem_append.1 h with h | h
    · exact ih _ c h
    · exact ⟨n % 16, Nat.mod_lt _ (by omega), List.mem_singleton.1 h⟩

theorem hexDigits_val (k : Nat) : ∀ n, (hexDigits k n).foldl (fun n c => n * 16 + hexOf c) 0 = n % 16 ^ k := by
  induction k with
  | zero => intro n; simp [hexDigits, Nat.mod_one]
  | succ k ih =>
    intro n
    rw [hexDigits, List.foldl_append, ih]
    simp only [List.foldl_cons, List.foldl_nil]
    rw [(hexChar_spec _ (Nat.mod_lt n (by omega))).2.1, Nat.pow_succ, Nat.mul_comm (16 ^ k), Nat.mod_mul]
    omega

theorem uuid_parts (n : Nat) : ∃ a b c d e : Str, hexDigits 32 n = a ++ b ++ c ++ d ++ e ∧
    uuidStr n = a ++ s%"-" ++ b ++ s%"-" ++ c ++ s%"-" ++ d ++ s%"-" ++ e ∧
    (a.length = 8 ∧ b.length = 4 ∧ c.length = 4 ∧ d.length = 4 ∧ e.length = 12) := by
  have hl := hexDigits_length 32 n
  refine ⟨(hexDigits 32 n).take 8, ((hexDigits 32 n).drop 8).take 4, ((hexDigits 32 n).drop 12).take 4,
    ((hexDigits 32 n).drop 16).take 4, (hexDigits 32 n).drop 20, ?_, rfl, ?_⟩
  · have e1 : ((hexDigits 32 n).drop 16).take 4 ++ (hexDigits 32 n).drop 20 = (hexDigits 32 n).drop 16 := by
      have := List.take_append_drop 4 ((hexDigits 32 n).drop 16)
      rwa [List.drop_drop] at this
    have e2 : ((hexDigits 32 n).drop 12).take 4 ++ (hexDigits 32 n).drop 16 = (hexDigits 32 n).drop 12 := by
      have := List.take_append_drop 4 ((hexDigits 32 n).drop 12)
      rwa [List.drop_drop] at this
    have e3 : ((hexDigits 32 n).drop 8).take 4 ++ (hexDigits 32 n).drop 12 = (hexDigits 32 n).drop 8 := by
      have := List.take_append_drop 4 ((hexDigits 32 n).drop 8)
      rwa [List.drop_drop] at this
    simp only [List.append_assoc]
    rw [e1, e2, e3, List.take_append_drop]
  · simp [hl]

theorem hex_lt (s : Str) : (∀ c ∈ s, isHex c = true) → ∀ a,
    s.foldl (fun n c => n * 16 + hexOf c) a < (a + 1) * 16 ^ s.length := by
  induction s with
  | nil => intro _ a; simp
  | cons c cs ih =>
    intro h a
    have h1 := h c (.head _)
    have h2 : hexOf c < 16 := by
      simp only [isHex, Bool.or_eq_true, Bool.and_eq_true, decide_eq_true_eq] at h1
      simp only [hexOf]
      split
      · omega
      · split <;> omega
    have := ih (fun x hx => h x (.tail _ hx)) (a * 16 + hexOf c)
    rw [List.foldl_cons, List.length_cons, Nat.pow_succ]
    refine Nat.lt_of_lt_of_le this ?_
    rw [show (a + 1) * (16 ^ cs.length * 16) = ((a + 1) * 16) * 16 ^ cs.length by
      rw [Nat.mul_assoc, Nat.mul_comm 16]]
    exact Nat.mul_le_mul_right _ (by omega)

/-! ### C50 -/

/-- The pattern of a converter has no groups. -/
theorem kind_pure (dec : Char → Option Nat) (k : Kind) : Re.Pure (k.conv dec).re := by
  cases k with
  | string min max => exact pure_rep _ _ _
  | any items => exact pure_any items
  | path => exact ⟨trivial, trivial⟩
  | int fixed lo hi => exact ⟨trivial, trivial⟩
  | uuid =>
    have t : ∀ n, Re.Pure (times (.cls isHex) n) := fun n => pure_rep _ _ _
    exact ⟨t 8, pure_lit _, t 4, pure_lit _, t 4, pure_lit _, t 4, pure_lit _, t 12⟩
  | float F lo hi => exact ⟨⟨trivial, trivial⟩, pure_lit _, trivial, trivial⟩

/-- A float in the usual notation: digits, a dot, digits. -/
def Usual (dec : Char → Option Nat) (s : Str) : Prop :=
  ∃ a b, s = a ++ '.' :: b ∧ a ≠ [] ∧ b ≠ [] ∧ (∀ c ∈ a, (dec c).isSome = true) ∧ ∀ c ∈ b, (dec c).isSome = true

theorem lang_float (F : FloatLib) (dec : Char → Option Nat) (lo hi : Option Str) (t : Str) :
    Re.Lang (floatConv F dec lo hi).re t ↔ Usual dec t := by
  have : Re.Lang (floatConv F dec lo hi).re t ↔ ∃ u v, t = u ++ v ∧ Re.Lang (Re.plus (.cls fun c => (dec c).isSome)) u ∧
      ∃ w x, v = w ++ x ∧ Re.Lang (Re.lit s%".") w ∧ Re.Lang (Re.plus (.cls fun c => (dec c).isSome)) x := Iff.rfl
  rw [this]
  simp only [lang_plus, lang_lit]
  constructor
  · rintro ⟨u, v, rfl, ⟨h1, h2⟩, w, x, rfl, rfl, h3, h4⟩
    exact ⟨u, x, rfl, h1, h3, h2, h4⟩
  · rintro ⟨a, b, rfl, h1, h2, h3, h4⟩
    exact ⟨a, '.' :: b, rfl, ⟨h1, h3⟩, s%".", b, rfl, rfl, h2, h4⟩

/-- A value within bounds. -/
def Within (F : FloatLib) (lo hi : Option Str) (f : Str) : Prop :=
  (∀ l, lo = some l → F.lt f l = false) ∧ ∀ h, hi = some h → F.lt h f = false

theorem within (F : FloatLib) (lo hi : Option Str) (f : Str) :
    (lo.any (fun l => F.lt f l) || hi.any (fun h => F.lt h f)) = false ↔ Within F lo hi f := by
  unfold Within
  rw [Bool.or_eq_false_iff]
  cases lo <;> cases hi <;> simp

/-- What a text that fits a converter is converted to is a value of the converter. -/
theorem kind_valid (dec : Char → Option Nat) (hd : Decimal dec) (k : Kind) (hk : k.Ok) (t : Str)
    (ht : Re.Lang (k.conv dec).re t) (v : Val) (hv : (k.conv dec).toPython t = some v) : k.Valid v := by
  cases k with
  | string min max =>
    cases hv
    obtain ⟨h1, h2, h3⟩ := (lang_rep noSlash min max hk t).1 ht
    exact ⟨fun h => by have := h1 _ h; simp [noSlash] at this, h2, h3⟩
  | any items =>
    cases hv
    rcases (lang_any items t).1 ht with h | h
    · exact h
    · exact absurd h.1 hk
  | path =>
    cases hv
    obtain ⟨c, cs, rfl, h1, h2⟩ := (lang_path t).1 ht
    exact ⟨by simp, by simpa using h1, by simpa using h2⟩
  | int fixed lo hi =>
    obtain ⟨h1, h2⟩ := (lang_plus _ t).1 ht
    simp only [Kind.conv, intConv] at hv
    split at hv
    · cases hv
    · rename_i hf
      split at hv
      · cases hv
      · rename_i hb
        cases hv
        refine ⟨Int.natCast_nonneg _, ?_, ?_, ?_⟩
        · rintro l rfl
          have : ¬ (below (some l) (intD dec t) = true) := fun h => hb (.inl h)
          simp only [below, decide_eq_true_eq] at this
          omega
        · rintro l rfl
          have : ¬ (above (some l) (intD dec t) = true) := fun h => hb (.inr h)
          simp only [above, decide_eq_true_eq] at this
          omega
        · intro h0
          have hl : t.length = fixed := Classical.byContradiction fun h => hf ⟨h0, h⟩
          have := intD_lt dec hd t h2
          rw [hl] at this
          exact_mod_cast this
  | uuid =>
    cases hv
    obtain ⟨a, b, c, d, e, rfl, ⟨la, lb, lc, ld, le⟩, h⟩ := (lang_uuid t).1 ht
    have hchar : ∀ x, isHex x = true → x ≠ '-' := by
      rintro x hx rfl
      exact absurd hx (by decide)
    have hfilt : ∀ l : Str, (∀ x ∈ l, isHex x = true) → l.filter (· != '-') = l := by
      intro l hl
      rw [List.filter_eq_self]
      intro x hx
      simpa using hchar x (hl x hx)
    have hf : List.filter (· != '-') (a ++ s%"-" ++ b ++ s%"-" ++ c ++ s%"-" ++ d ++ s%"-" ++ e) = a ++ b ++ c ++ d ++ e := by
      simp only [List.filter_append]
      rw [hfilt a fun x hx => h x (by simp [hx]), hfilt b fun x hx => h x (by simp [hx]),
        hfilt c fun x hx => h x (by simp [hx]), hfilt d fun x hx => h x (by simp [hx]),
        hfilt e fun x hx => h x (by simp [hx])]
      simp
    have hl : (a ++ b ++ c ++ d ++ e).length = 32 := by simp [la, lb, lc, ld, le]
    have := hex_lt (a ++ b ++ c ++ d ++ e) h 0
    rw [hl] at this
    show uuidOf _ < 2 ^ 128
    unfold uuidOf
    rw [hf]
    refine Nat.lt_of_lt_of_le this (by decide)
  | float F lo hi =>
    simp only [Kind.conv, floatConv] at hv
    split at hv
    · cases hv
    · rename_i f hf
      split at hv
      · cases hv
      · rename_i hw
        cases hv
        exact ⟨hk t f hf, (within F lo hi f).1 (by simpa using hw)⟩

/-- Writing a value and reading it again. -/
theorem kind_roundtrip (dec : Char → Option Nat) (hd : Decimal dec) (k : Kind) (hk : k.Ok) (v : Val) (hv : k.Valid v)
    (hp : k.Plain v) : ∃ u t, (k.conv dec).toUrl v = .ok (some u) ∧ Written u t ∧ Re.Lang (k.conv dec).re t ∧
      (k.conv dec).toPython t = some v := by
  have hq : ∀ s, Written (urlquote b%"/:" s) s := fun s => written_quote _ (by decide) (by decide) s
  cases k with
  | string min max =>
    cases v with
    | str s =>
      obtain ⟨h1, h2, h3⟩ := hv
      refine ⟨_, s, rfl, hq s, (lang_rep noSlash min max hk s).2 ⟨fun c hc => ?_, h2, h3⟩, rfl⟩
      simp only [noSlash, bne_iff_ne, ne_eq]
      rintro rfl
      exact h1 hc
    | int i => exact hv.elim
    | flt s => exact hv.elim
    | uuid n => exact hv.elim
  | any items =>
    cases v with
    | str s => exact ⟨_, s, rfl, hq s, (lang_any items s).2 (.inl hv), rfl⟩
    | int i => exact hv.elim
    | flt s => exact hv.elim
    | uuid n => exact hv.elim
  | path =>
    cases v with
    | str s =>
      obtain ⟨h1, h2, h3⟩ := hv
      refine ⟨_, s, rfl, hq s, (lang_path s).2 ?_, rfl⟩
      cases s with
      | nil => exact absurd rfl h1
      | cons c cs => exact ⟨c, cs, rfl, by simpa using h2, h3⟩
    | int i => exact hv.elim
    | flt s => exact hv.elim
    | uuid n => exact hv.elim
  | int fixed lo hi =>
    cases v with
    | str s => exact hv.elim
    | flt s => exact hv.elim
    | uuid n => exact hv.elim
    | int i =>
      obtain ⟨h0, h1, h2, h3⟩ := hv
      obtain ⟨n, rfl⟩ := Int.eq_ofNat_of_zero_le h0
      have hb : ¬ (below lo (n : Int) = true ∨ above hi (n : Int) = true) := by
        rintro (h | h)
        · cases lo with
          | none => cases h
          | some l => have := h1 l rfl; simp [below] at h; omega
        · cases hi with
          | none => cases h
          | some l => have := h2 l rfl; simp [above] at h; omega
      have hdig := Py.natStr_digits n
      -- the text, the number of digits
      have key : ∀ (t : Str) (z : Nat), t = List.replicate z '0' ++ Py.natStr n → Written t t ∧
          Re.Lang (Re.plus (.cls fun c => (dec c).isSome)) t ∧ intD dec t = n := by
        intro t z ht
        have hall : ∀ c ∈ t, Py.IsDig c := by
          intro c hc
          rw [ht] at hc
          rcases List.mem_append.1 hc with hc | hc
          · rw [(List.mem_replicate.1 hc).2]; exact ⟨by decide, by decide⟩
          · exact hdig c hc
        refine ⟨written_plain t fun c hc => ?_, (lang_plus _ t).2 ⟨?_, fun c hc => ?_⟩, ?_⟩
        · obtain ⟨h4, h5⟩ := hall c hc
          exact ⟨by omega, by rintro rfl; exact absurd h4 (by decide)⟩
        · rw [ht]
          have := Py.natStr_ne_nil n
          simp [this]
        · rw [dec_dig dec hd c (hall c hc)]; rfl
        · rw [ht, intD_zeros dec hd, intD_natStr dec hd]
      by_cases hf : fixed = 0
      · obtain ⟨k1, k2, k3⟩ := key (Py.natStr n) 0 rfl
        refine ⟨Py.natStr n, Py.natStr n, ?_, k1, k2, ?_⟩
        · simp [Kind.conv, intConv, numConvert, hf, Py.intStr]
        · simp only [Kind.conv, intConv, k3]
          rw [if_neg (by simp [hf]), if_neg hb]
      · obtain ⟨k1, k2, k3⟩ := key (List.replicate (fixed - (Py.natStr n).length) '0' ++ Py.natStr n) _ rfl
        refine ⟨_, _, ?_, k1, k2, ?_⟩
        · simp only [Kind.conv, intConv, numConvert]
          rw [if_pos hf, zeroPad, if_neg (by omega)]
          rfl
        · have hlen : (Py.natStr n).length ≤ fixed := by
            have h4 := h3 hf
            obtain ⟨f, rfl⟩ : ∃ f, fixed = f + 1 := ⟨fixed - 1, by omega⟩
            exact natStr_length f n (by exact_mod_cast h4)
          simp only [Kind.conv, intConv, k3]
          rw [if_neg, if_neg hb]
          rintro ⟨_, h5⟩
          apply h5
          simp
          omega
  | uuid =>
    cases v with
    | str s => exact hv.elim
    | int i => exact hv.elim
    | flt s => exact hv.elim
    | uuid n =>
      obtain ⟨a, b, c, d, e, h1, h2, h3⟩ := uuid_parts n
      have hm := hexDigits_mem 32 n
      have hchar : ∀ x ∈ a ++ b ++ c ++ d ++ e, isHex x = true ∧ x ≠ '-' ∧ x.toNat < 128 ∧ x ≠ '%' := by
        intro x hx
        rw [← h1] at hx
        obtain ⟨y, hy, rfl⟩ := hm x hx
        obtain ⟨e1, _, e3, e4, e5⟩ := hexChar_spec y hy
        exact ⟨e1, e3, e4, e5⟩
      have hfilt : ∀ l : Str, (∀ x ∈ l, x ≠ '-') → l.filter (· != '-') = l := by
        intro l hl
        rw [List.filter_eq_self]
        intro x hx
        simpa using hl x hx
      refine ⟨uuidStr n, uuidStr n, rfl, written_plain _ ?_, (lang_uuid _).2 ⟨a, b, c, d, e, h2, h3, fun x hx => (hchar x hx).1⟩, ?_⟩
      · intro x hx
        rw [h2] at hx
        simp only [List.mem_append, List.mem_singleton] at hx
        rcases hx with (((((((hx | hx) | hx) | hx) | hx) | hx) | hx) | hx) | hx
        any_goals (subst hx; exact ⟨by decide, by decide⟩)
        all_goals exact ⟨(hchar x (by simp [hx])).2.2.1, (hchar x (by simp [hx])).2.2.2⟩
      · have : uuidOf (uuidStr n) = n := by
          unfold uuidOf
          have : (uuidStr n).filter (· != '-') = hexDigits 32 n := by
            rw [h2, h1]
            simp only [List.filter_append]
            rw [hfilt a fun x hx => (hchar x (by simp [hx])).2.1, hfilt b fun x hx => (hchar x (by simp [hx])).2.1,
              hfilt c fun x hx => (hchar x (by simp [hx])).2.1, hfilt d fun x hx => (hchar x (by simp [hx])).2.1,
              hfilt e fun x hx => (hchar x (by simp [hx])).2.1]
            simp
          rw [this, hexDigits_val, Nat.mod_eq_of_lt]
          exact hv
        simp [Kind.conv, uuidConv, this]
  | float F lo hi =>
    cases v with
    | str s => exact hv.elim
    | int i => exact hv.elim
    | uuid n => exact hv.elim
    | flt f =>
      obtain ⟨h1, h2⟩ := hv
      obtain ⟨a, b, rfl, ha, hb, hda, hdb⟩ : Digits f := hp
      refine ⟨_, _, rfl, written_plain _ ?_, (lang_float _ _ _ _ _).2 ⟨a, b, rfl, ha, hb, ?_, ?_⟩, ?_⟩
      · intro c hc
        have key : 48 ≤ c.toNat ∧ c.toNat ≤ 57 → c.toNat < 128 ∧ c ≠ '%' := fun h =>
          ⟨by omega, by rintro rfl; exact absurd h.1 (by decide)⟩
        rcases List.mem_append.1 hc with hc | hc
        · exact key (hda c hc)
        · rcases List.mem_cons.1 hc with rfl | hc
          · exact ⟨by decide, by decide⟩
          · exact key (hdb c hc)
      · intro c hc
        rw [dec_dig dec hd c (hda c hc)]; rfl
      · intro c hc
        rw [dec_dig dec hd c (hdb c hc)]; rfl
      · have hw := (within F lo hi _).2 h2
        simp only [Kind.conv, floatConv, h1, hw]
        rfl

/-! ### arguments of a match -/

theorem compile_nodup (cfg : Config) (i : Nat) (r : Route) (b : Bound) (h : compile cfg i r = .ok b) :
    b.names.Nodup ∨ b.route.buildOnly = true := by
  unfold compile at h
  simp only at h
  split at h
  · cases h
  · split at h
    · cases h
    · cases h
    · split at h
      · cases h
      · cases h
      · split at h
        · rename_i hc
          cases h
          exact hc
        · cases h

theorem get_args (vs : List (Str × Converter)) : ∀ (ts : List Str) (args : Values), (vs.map (·.1)).Nodup →
    ts.length = vs.length → argsOf vs ts = some args → ∀ n c, (n, c) ∈ vs → ∃ t v, t ∈ ts ∧ (c, t) ∈ (vs.map (·.2)).zip ts ∧
      c.toPython t = some v ∧ Dict.get args n = some v := by
  induction vs with
  | nil => intro ts args _ _ _ n c h; cases h
  | cons p vs ih =>
    intro ts args hnd hl ha n c hmem
    obtain ⟨name, conv⟩ := p
    cases ts with
    | nil => cases hl
    | cons t ts =>
      simp only [argsOf] at ha
      split at ha
      · cases ha
      · rename_i v hv
        cases ha' : argsOf vs ts with
        | none => rw [ha'] at ha; cases ha
        | some as =>
          rw [ha'] at ha
          cases ha
          rw [List.map_cons, List.nodup_cons] at hnd
          rcases List.mem_cons.1 hmem with hm | hm
          · cases hm
            exact ⟨t, v, .head _, .head _, hv, by simp [Dict.get]⟩
          · obtain ⟨t', v', h1, h2, h3, h4⟩ := ih ts as hnd.2 (by simpa using hl) ha' n c hm
            refine ⟨t', v', .tail _ h1, .tail _ h2, h3, ?_⟩
            have hne : n ≠ name := by
              rintro rfl
              exact hnd.1 (List.mem_map.2 ⟨_, hm, rfl⟩)
            simp only [Dict.get] at h4 ⊢
            first
            | rw [if_neg (by simpa using Ne.symm hne)]; exact h4
            | simpa [hne, Ne.symm hne] using h4

theorem get_update (d e : Values) (n : Str) (h : n ∉ Dict.keys e) : Dict.get (update d e) n = Dict.get d n := by
  unfold update
  induction e generalizing d with
  | nil => rfl
  | cons kv e ih =>
    obtain ⟨k, v⟩ := kv
    have hk : n ∉ Dict.keys e := fun hx => h (by simp [Dict.keys] at hx ⊢; exact .inr hx)
    have hne : n ≠ k := by rintro rfl; exact h (by simp [Dict.keys])
    rw [List.foldl_cons, ih _ hk]
    rw [Dict.get_set, if_neg]
    first | exact hne | exact Ne.symm hne

theorem fit_zip (ps : List Part) : ∀ ts, Fit ps ts → ∀ c t, (c, t) ∈ ((vars ps).map (·.2)).zip ts →
    Re.Lang c.re t ∧ t <:+: fill ps ts := by
  induction ps with
  | nil => intro ts h c t hm; cases hm
  | cons p ps ih =>
    intro ts h c t hm
    cases p with
    | text s =>
      obtain ⟨h1, h2⟩ := ih ts h c t hm
      exact ⟨h1, h2.trans (List.suffix_append s _).isInfix⟩
    | var n k =>
      cases ts with
      | nil => exact h.elim
      | cons x ts =>
        simp only [vars, List.map_cons, List.zip_cons_cons, List.mem_cons] at hm
        rcases hm with hm | hm
        · cases hm
          exact ⟨h.1, (List.prefix_append t _).isInfix⟩
        · obtain ⟨h1, h2⟩ := ih ts h.2 c t hm
          exact ⟨h1, h2.trans (List.suffix_append x _).isInfix⟩

/-- What a route gives for a variable without default is converted from a piece of the path
that fits the pattern of its converter. -/
theorem delivered (cfg : Config) (i : Nat) (r : Route) (b : Bound) (hc : compile cfg i r = .ok b)
    (hp : PureParts (parts b)) (path : Str) (vs : Values)
    (hm : b.match_ cfg path = .values vs ∨ b.match_ cfg path = .alias vs)
    (n : Str) (c : Converter) (hn : (n, c) ∈ b.vars) (hd : n ∉ Dict.keys b.route.defaults) :
    ∃ t v, t <:+: path ∧ Re.Lang c.re t ∧ c.toPython t = some v ∧ Dict.get vs n = some v := by
  have hb : b.route.buildOnly = false := by
    cases h : b.route.buildOnly with
    | false => rfl
    | true =>
      have : b.match_ cfg path = .none := by simp [Bound.match_, h]
      rw [this] at hm
      rcases hm with hm | hm <;> cases hm
  rcases match_cases cfg b hp hb path with ⟨_, _, h⟩ | ⟨ts, suf, nl, hr, _, h⟩
  · rw [h] at hm
    rcases hm with hm | hm <;> cases hm
  · have hl : ts.length = b.vars.length := by rw [fit_length _ _ hr.fit, vars_parts]
    obtain ⟨args, ha, hvs⟩ : ∃ args, argsOf b.vars ts = some args ∧ vs = update args b.route.defaults := by
      rw [h] at hm
      unfold outcome at hm
      split at hm
      · rcases hm with hm | hm <;> cases hm
      · split at hm
        · rcases hm with hm | hm <;> cases hm
        · rename_i args ha
          refine ⟨args, ha, ?_⟩
          split at hm
          · rcases hm with hm | hm <;> cases hm
            rfl
          · rcases hm with hm | hm <;> cases hm
            rfl
    have hnd : (b.vars.map (·.1)).Nodup := by
      rcases compile_nodup cfg i r b hc with h | h
      · unfold Bound.names at h
        exact (List.nodup_append.1 h).2.1
      · rw [hb] at h; cases h
    obtain ⟨t, v, _, h2, h3, h4⟩ := get_args b.vars ts args hnd hl ha n c hn
    rw [← vars_parts] at h2
    obtain ⟨h5, h6⟩ := fit_zip _ ts hr.fit c t h2
    refine ⟨t, v, ?_, h5, h3, ?_⟩
    · rw [hr.path, List.append_assoc]
      exact h6.trans (List.prefix_append _ _).isInfix
    · rw [hvs, get_update _ _ _ hd]
      exact h4

/-- Every argument that a route delivers for a variable (unless the route has a default for
it) is a value of the converter of the variable. -/
theorem C50_delivered (dec : Char → Option Nat) (hdec : Decimal dec) (cfg : Config)
    (hcfg : ∀ k as c, cfg.conv k as = .ok c → Re.Pure c.re) (i : Nat) (r : Route) (b : Bound)
    (hc : compile cfg i r = .ok b) (path : Str) (vs : Values)
    (hm : b.match_ cfg path = .values vs ∨ b.match_ cfg path = .alias vs)
    (n : Str) (k : Kind) (hk : k.Ok) (hn : (n, k.conv dec) ∈ b.vars) (hd : n ∉ Dict.keys b.route.defaults) :
    ∃ v, Dict.get vs n = some v ∧ k.Valid v := by
  have hp : PureParts (parts b) := by
    intro n c h
    rw [vars_parts] at h
    obtain ⟨k, as, h⟩ := compile_conv cfg i r b hc n c h
    exact hcfg k as c h
  obtain ⟨t, v, _, h2, h3, h4⟩ := delivered cfg i r b hc hp path vs hm n _ hn hd
  exact ⟨v, h4, kind_valid dec hdec k hk t h2 v h3⟩

/-- An integer comes from a piece of the path made of decimal digits, as many as fixed. -/
theorem C50_digits (dec : Char → Option Nat) (cfg : Config)
    (hcfg : ∀ k as c, cfg.conv k as = .ok c → Re.Pure c.re) (i : Nat) (r : Route) (b : Bound)
    (hc : compile cfg i r = .ok b) (path : Str) (vs : Values)
    (hm : b.match_ cfg path = .values vs ∨ b.match_ cfg path = .alias vs)
    (n : Str) (fixed : Nat) (lo hi : Option Int) (hn : (n, intConv dec fixed lo hi) ∈ b.vars)
    (hd : n ∉ Dict.keys b.route.defaults) :
    ∃ t, t <:+: path ∧ t ≠ [] ∧ (∀ c ∈ t, (dec c).isSome = true) ∧ (fixed ≠ 0 → t.length = fixed) ∧
      Dict.get vs n = some (.int (intD dec t)) := by
  have hp : PureParts (parts b) := by
    intro n c h
    rw [vars_parts] at h
    obtain ⟨k, as, h⟩ := compile_conv cfg i r b hc n c h
    exact hcfg k as c h
  obtain ⟨t, v, h1, h2, h3, h4⟩ := delivered cfg i r b hc hp path vs hm n _ hn hd
  obtain ⟨h5, h6⟩ := (lang_plus _ t).1 h2
  simp only [intConv] at h3
  split at h3
  · cases h3
  · rename_i hf
    split at h3
    · cases h3
    · cases h3
      exact ⟨t, h1, h5, h6, fun h0 => Classical.byContradiction fun h => hf ⟨h0, h⟩, h4⟩

/-- A value of a converter is written to a URL text that stands for a text which fits the
pattern of the converter and is converted to the value. -/
theorem C50_roundtrip (dec : Char → Option Nat) (hdec : Decimal dec) (k : Kind) (hk : k.Ok) (v : Val) (hv : k.Valid v)
    (hp : k.Plain v) : ∃ u t, (k.conv dec).toUrl v = .ok (some u) ∧ Percent.meaning (utf8 u) = utf8 t ∧
      Re.Lang (k.conv dec).re t ∧ (k.conv dec).toPython t = some v := by
  obtain ⟨u, t, h1, h2, h3, h4⟩ := kind_roundtrip dec hdec k hk v hv hp
  exact ⟨u, t, h1, h2.meaning, h3, h4⟩

/-- The digits of ASCII. -/
def asciiDec (c : Char) : Option Nat := if c.isDigit then some (c.toNat - 48) else none

theorem asciiDec_ok : Decimal asciiDec := by
  constructor
  · intro c d h
    unfold asciiDec at h
    split at h
    · rename_i hc
      cases h
      simp only [Char.isDigit, Bool.and_eq_true, decide_eq_true_eq] at hc
      have h1 := hc.2
      have : c.val.toNat ≤ 57 := UInt32.le_iff_toNat_le.1 h1
      simp only [Char.toNat]
      omega
    · cases h
  · intro d hd
    have : (List.range 10).all (fun d => asciiDec (Char.ofNat (48 + d)) == some d) = true := by decide +kernel
    exact eq_of_beq (List.all_eq_true.1 this d (List.mem_range.2 hd))

/-- A map whose integers have four digits, from 10 to 5000. -/
def fourCfg : Config :=
  ⟨false, [], true, true, fun k _ => if k = s%"int" then .ok (intConv asciiDec 4 (some 10) (some 5000))
    else .ok (stringConv 1 none), fun _ p => p⟩

set_option maxRecDepth 8000 in
example : ∃ b, compile fourCfg 0 (sampleRoute s%"/<int:n>/<x>" s%"e") = .ok b ∧
    b.match_ sampleCfg s%"|/0042/ab" = .values [(s%"n", .int 42), (s%"x", .str s%"ab")] ∧
    b.match_ sampleCfg s%"|/42/ab" = .none ∧ b.match_ sampleCfg s%"|/5042/ab" = .none :=
  ⟨_, rfl, rfl, rfl, rfl⟩

example : Kind.Valid (.int 4 none (some 5000)) (.int 42) ∧ (Kind.conv asciiDec (.int 4 none (some 5000))).toUrl (.int 42) =
    .ok (some s%"0042") := by
  refine ⟨⟨by decide, by simp, ?_, by decide⟩, by decide +kernel⟩
  intro h hh
  cases hh
  decide

example : Kind.Valid (.string 1 (some 4)) (.str s%"a b") ∧ (Kind.conv asciiDec (.string 1 (some 4))).toUrl (.str s%"a b") =
    .ok (some s%"a%20b") := by
  refine ⟨⟨by decide, by decide, ?_⟩, by decide +kernel⟩
  intro h hh
  cases hh
  decide

end Verif.Props.RoutingP
