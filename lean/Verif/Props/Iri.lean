import Verif.Model.Iri
import Verif.Props.RequestUri
/-!
C95: whole URLs made from text.
-/
namespace Verif.Props.IriP
open Verif Verif.Py Verif.ReqUrl Verif.Iri Verif.Props.ReqUrlP

/-- A text of ASCII characters only. -/
def Ascii (s : Str) : Prop := ∀ c ∈ s, c.toNat < 128

/-- What is used of `str.lower`: on ASCII texts it changes capital letters only, and it never
makes an ASCII character that is neither a small letter nor was there before. -/
structure LowerOk (lower : Str → Str) : Prop where
  ascii : ∀ s, Ascii s → lower s = s.map Char.toLower
  made : ∀ s, ∀ c ∈ lower s, c.toNat < 128 → c.isLower = true ∨ (c ∈ s ∧ c.isUpper = false)
  kept : ∀ s, lower s = [] → s = []

/-- What is used of the IDNA codec for the labels of a host that is not ASCII: what it makes of a
label is not empty, is ASCII, and has only small letters, digits, hyphens and characters of the
label.  This holds for the codec of Python unless a label has characters that the normalisation
NFKC turns into delimiters (`C95_codec_limits`). -/
def IdnaOk (idna : Str → Except PyErr Bytes) (host : Str) : Prop :=
  ¬ Ascii host → ∀ l ∈ Py.splitOn '.' host, ∀ b, idna l = .ok b → (l ≠ [] → b ≠ []) ∧ ∀ x ∈ b, x.toNat < 128 ∧
    ((Char.ofNat x.toNat).isLower = true ∨ (Char.ofNat x.toNat).isDigit = true ∨ Char.ofNat x.toNat = '-' ∨
      Char.ofNat x.toNat ∈ l)

theorem ascii_append {a b : Str} : Ascii (a ++ b) ↔ Ascii a ∧ Ascii b := by
  unfold Ascii
  constructor
  · intro h; exact ⟨fun c hc => h c (by simp [hc]), fun c hc => h c (by simp [hc])⟩
  · rintro ⟨h1, h2⟩ c hc
    rcases List.mem_append.1 hc with h | h
    · exact h1 c h
    · exact h2 c h

theorem ascii_cons {c : Char} {b : Str} : Ascii (c :: b) ↔ c.toNat < 128 ∧ Ascii b := by
  unfold Ascii; simp

theorem ascii_nil : Ascii [] := by simp [Ascii]

/-! ### Quoting -/

theorem mem_quoteText {safe : List UInt8} {s : Str} {c : Char} (hs : ∀ b ∈ safe, b.toNat < 128) (h : c ∈ quoteText safe s) :
    c.toNat < 128 ∧ (Urls.alwaysSafe (Utf8.byte c.toNat) = true ∨ c = '%' ∨ (Utf8.byte c.toNat ∈ safe ∧ c ∈ s)) := by
  have h1 : c.toNat < 128 := latin1_low (quote_low safe hs _) c h
  refine ⟨h1, ?_⟩
  unfold quoteText at h
  rw [mem_latin1 (by omega)] at h
  rcases quote_mem h with h | h | ⟨h, h'⟩
  · exact Or.inl h
  · right; left
    have : (Utf8.byte c.toNat).toNat = 37 := by rw [h]; rfl
    rw [Utf8.byte_toNat (by omega)] at this
    rw [← Utf8.ofNat_toNat c, this]
  · right; right
    refine ⟨h, ?_⟩
    unfold Utf8.encode at h'
    simp only [List.mem_flatMap] at h'
    obtain ⟨d, hd, hb⟩ := h'
    by_cases hd' : d.toNat < 128
    · rw [Utf8.encChar_ascii hd'] at hb
      simp only [List.mem_singleton] at hb
      have : (Utf8.byte c.toNat).toNat = (Utf8.byte d.toNat).toNat := by rw [hb]
      rw [Utf8.byte_toNat (by omega), Utf8.byte_toNat (by omega)] at this
      rw [← Utf8.ofNat_toNat c, this, Utf8.ofNat_toNat]; exact hd
    · have := Utf8.encChar_high (by omega : 128 ≤ d.toNat) _ hb
      rw [Utf8.byte_toNat (by omega)] at this
      omega

theorem quoteText_ascii {safe : List UInt8} (hs : ∀ b ∈ safe, b.toNat < 128) (s : Str) : Ascii (quoteText safe s) :=
  fun _ hc => (mem_quoteText hs hc).1

/-- A delimiter that is not safe, or was not there, is not in the quoted text. -/
theorem quoteText_no {safe : List UInt8} (hs : ∀ b ∈ safe, b.toNat < 128) {c : Char} (h37 : c ≠ '%')
    (ha : Urls.alwaysSafe (Utf8.byte c.toNat) = false) {s : Str} (h : Utf8.byte c.toNat ∉ safe ∨ c ∉ s) : c ∉ quoteText safe s := by
  intro hc
  rcases (mem_quoteText hs hc).2 with h1 | h1 | ⟨h1, h2⟩
  · rw [ha] at h1; cases h1
  · exact h37 h1
  · rcases h with h | h
    · exact h h1
    · exact h h2

theorem quoteText_idem {safe : List UInt8} (hs : ∀ b ∈ safe, b.toNat < 128) (h37 : (37 : UInt8) ∈ safe) (s : Str) :
    quoteText safe (quoteText safe s) = quoteText safe s := by
  unfold quoteText
  rw [encode_latin1 (quote_low safe hs _), (Urls.C68_quote_idempotent safe h37 _).1]

theorem quoteText_nil {safe : List UInt8} {s : Str} : quoteText safe s = [] ↔ s = [] := by
  unfold quoteText
  rw [latin1_nil, quote_nil, encode_nil]

theorem quoteText_meaning {safe : List UInt8} (hs : ∀ b ∈ safe, b.toNat < 128) (h37 : (37 : UInt8) ∈ safe) (s : Str) :
    Percent.meaning (Utf8.encode (quoteText safe s)) = Percent.meaning (Utf8.encode s) := by
  unfold quoteText
  rw [encode_latin1 (quote_low safe hs _), Urls.meaning_quote safe h37]

theorem pathSafe_low : ∀ b ∈ Urls.pathSafe, b.toNat < 128 := by decide
theorem querySafe_low : ∀ b ∈ Urls.querySafe, b.toNat < 128 := by decide
theorem fragmentSafe_low : ∀ b ∈ Urls.fragmentSafe, b.toNat < 128 := by decide
theorem authSafe_low : ∀ b ∈ authSafe, b.toNat < 128 := by decide

/-- A path keeps its first slash. -/
theorem quoteText_head {safe : List UInt8} (h47 : (47 : UInt8) ∈ safe) {s : Str} (h : s.head? = some '/') :
    (quoteText safe s).head? = some '/' := by
  cases s with
  | nil => simp at h
  | cons c s =>
    simp at h; subst h
    unfold quoteText
    rw [Utf8.encode_cons, Utf8.encChar_ascii (by decide)]
    have : (Utf8.byte '/'.toNat) = 47 := by decide
    rw [this, List.singleton_append, Urls.quote_cons, if_pos (Or.inr h47)]
    rfl

/-! ### Taking URLs apart -/

theorem split1_parts (c : Char) (s : Str) : c ∉ (split1 c s).1 ∧ (∀ d ∈ (split1 c s).1, d ∈ s) ∧
    (∀ d ∈ (split1 c s).2.getD [], d ∈ s) := by
  induction s with
  | nil => simp [split1]
  | cons x s ih =>
    simp only [split1]
    split
    · refine ⟨by simp, by simp, ?_⟩
      intro d hd; simp at hd; simp [hd]
    · rename_i hx
      refine ⟨?_, ?_, ?_⟩
      · simp only [List.mem_cons, not_or]; exact ⟨fun h => hx h.symm, ih.1⟩
      · intro d hd
        simp only [List.mem_cons] at hd ⊢
        rcases hd with h | h
        · exact Or.inl h
        · exact Or.inr (ih.2.1 d h)
      · intro d hd; exact List.mem_cons_of_mem _ (ih.2.2 d hd)

theorem split1_head {c : Char} {s : Str} (h : s.head? = some '/') (hc : c ≠ '/') : (split1 c s).1.head? = some '/' := by
  cases s with
  | nil => simp at h
  | cons x s =>
    simp at h; subst h
    simp only [split1]
    rw [if_neg (fun h => hc h.symm)]
    simp

theorem dropWhile_headP {p : Char → Bool} {s : Str} {c : Char} (h : (s.dropWhile p).head? = some c) : p c = false := by
  induction s with
  | nil => simp at h
  | cons x s ih =>
    rw [List.dropWhile_cons] at h
    split at h
    · exact ih h
    · rename_i hx
      simp at h; subst h
      simpa using hx

theorem takeWhile_memP {p : Char → Bool} {s : Str} {c : Char} (h : c ∈ s.takeWhile p) : p c = true ∧ c ∈ s := by
  induction s with
  | nil => simp at h
  | cons x s ih =>
    rw [List.takeWhile_cons] at h
    split at h
    · rename_i hx
      simp only [List.mem_cons] at h ⊢
      rcases h with rfl | h
      · exact ⟨hx, Or.inl rfl⟩
      · exact ⟨(ih h).1, Or.inr (ih h).2⟩
    · simp at h

/-- The parts of a URL are free of each other's delimiters. -/
theorem splitRest_spec {scheme url : Str} {u : Split} (h : splitRest scheme url = .ok u) :
    u.scheme = scheme ∧ (∀ c ∈ s%"/?#", c ∉ u.netloc) ∧ (u.netloc ≠ [] → u.path = [] ∨ u.path.head? = some '/') ∧
    '?' ∉ u.path ∧ '#' ∉ u.path ∧ '#' ∉ u.query := by
  unfold splitRest at h
  simp only at h
  generalize hn : (if s%"//" <+: url then splitNetloc (url.drop 2) else (([] : Str), url)) = n at h
  have hn1 : (∀ c ∈ s%"/?#", c ∉ n.1) ∧ (n.1 ≠ [] → n.2 = [] ∨ ∃ c ∈ s%"/?#", n.2.head? = some c) := by
    split at hn
    · rw [← hn]
      unfold splitNetloc
      refine ⟨?_, ?_⟩
      · intro c hc h1
        have := (takeWhile_memP h1).1
        clear h1; revert this; revert c; decide
      · intro _
        simp only
        cases hd : (List.dropWhile (fun c => !(decide (c = '/') || decide (c = '?') || decide (c = '#'))) (url.drop 2)) with
        | nil => exact Or.inl rfl
        | cons x r =>
          right
          have := dropWhile_headP (p := fun c => !(decide (c = '/') || decide (c = '?') || decide (c = '#'))) (s := url.drop 2) (c := x) (by rw [hd]; rfl)
          refine ⟨x, ?_, rfl⟩
          simp at this
          simp
          by_cases h1 : x = '/'
          · exact Or.inl h1
          · by_cases h2 : x = '?'
            · exact Or.inr (Or.inl h2)
            · exact Or.inr (Or.inr (this h1 h2))
    · rw [← hn]; simp
  split at h
  · cases h
  · cases h
    simp only
    refine ⟨trivial, hn1.1, ?_, (split1_parts '?' _).1, ?_, ?_⟩
    · intro hne
      rcases hn1.2 hne with h0 | ⟨c, hc, hh⟩
      · rw [h0]; exact Or.inl rfl
      · simp at hc
        rcases hc with rfl | rfl | rfl
        · exact Or.inr (split1_head (split1_head hh (by decide)) (by decide))
        · left
          cases hr : n.2 with
          | nil => rfl
          | cons x r => rw [hr] at hh; simp at hh; subst hh; simp [split1]
        · left
          cases hr : n.2 with
          | nil => rfl
          | cons x r => rw [hr] at hh; simp at hh; subst hh; simp [split1]
    · intro h1; exact (split1_parts '#' _).1 ((split1_parts '?' _).2.1 _ h1)
    · intro h1; exact (split1_parts '#' _).1 ((split1_parts '?' _).2.2 _ h1)

theorem urlsplit_spec {lower : Str → Str} {url : Str} {u : Split} (h : urlsplit lower url = .ok u) :
    (∀ c ∈ s%"/?#", c ∉ u.netloc) ∧ (u.netloc ≠ [] → u.path = [] ∨ u.path.head? = some '/') ∧
    '?' ∉ u.path ∧ '#' ∉ u.path ∧ '#' ∉ u.query := by
  unfold urlsplit at h
  split at h
  · exact (splitRest_spec h).2
  · exact (splitRest_spec h).2
  · split at h
    · exact (splitRest_spec h).2
    · split at h
      · exact (splitRest_spec h).2
      · exact (splitRest_spec h).2

theorem schemeChar_ascii {c : Char} (h : schemeChar c = true) : c.toNat < 128 := by
  unfold schemeChar at h
  simp only [Bool.or_eq_true, Bool.and_eq_true, decide_eq_true_eq, Char.le_def] at h
  rcases h with ((((⟨_, h⟩ | ⟨_, h⟩) | ⟨_, h⟩) | h) | h) | h
  · have := UInt32.le_iff_toNat_le.1 h; simp at this; omega
  · have := UInt32.le_iff_toNat_le.1 h; simp at this; omega
  · have := UInt32.le_iff_toNat_le.1 h; simp at this; omega
  · subst h; decide
  · subst h; decide
  · subst h; decide

theorem toLower_ascii {c : Char} (h : c.toNat < 128) : c.toLower.toNat < 128 := by
  have h0 : ∀ m < 128, (Char.ofNat m).toLower.toNat < 128 := by decide +kernel
  have := h0 c.toNat h
  rwa [Utf8.ofNat_toNat] at this

theorem lower_ascii {lower : Str → Str} (hl : LowerOk lower) {s : Str} (h : Ascii s) : Ascii (lower s) := by
  rw [hl.ascii s h]
  intro c hc
  simp only [List.mem_map] at hc
  obtain ⟨d, hd, rfl⟩ := hc
  exact toLower_ascii (h d hd)

theorem urlsplit_scheme {lower : Str → Str} (hl : LowerOk lower) {url : Str} {u : Split} (h : urlsplit lower url = .ok u) :
    Ascii u.scheme := by
  unfold urlsplit at h
  split at h
  · rw [(splitRest_spec h).1]; exact ascii_nil
  · rw [(splitRest_spec h).1]; exact ascii_nil
  · split at h
    · rename_i h0; rw [(splitRest_spec h).1, h0]; unfold Ascii; decide
    · split at h
      · rename_i hc
        rw [(splitRest_spec h).1]
        apply lower_ascii hl
        simp only [Bool.and_eq_true, List.all_eq_true] at hc
        exact fun c hc' => schemeChar_ascii (hc.1 c hc')
      · rw [(splitRest_spec h).1]; exact ascii_nil

/-! ### The authority -/

theorem isDig_ascii {c : Char} (h : IsDig c) : c.toNat < 128 := by
  unfold IsDig at h; omega

theorem intStr_ascii (p : Int) : Ascii (intStr p) := by
  cases p with
  | ofNat n => exact fun c hc => isDig_ascii (natStr_digits n c hc)
  | negSucc n =>
    show Ascii ('-' :: natStr (n + 1))
    exact ascii_cons.2 ⟨by decide, fun c hc => isDig_ascii (natStr_digits _ c hc)⟩

theorem hostName_ascii {idna : Str → Except PyErr Bytes} {s h : Str} (hh : hostName idna s = .ok h) : Ascii h := by
  unfold hostName at hh
  split at hh
  · cases hh
  · split at hh
    · rename_i b _ hb
      cases hh
      apply latin1_low
      simp only [List.all_eq_true, decide_eq_true_eq] at hb
      exact fun x hx => UInt8.lt_iff_toNat_lt.1 (hb x hx)
    · cases hh

theorem hostUri_ascii {idna : Str → Except PyErr Bytes} {lower : Str → Str} {netloc h : Str}
    (hh : hostUri idna lower netloc = .ok h) : Ascii h := by
  unfold hostUri at hh
  simp only at hh
  split at hh
  · cases hh
  · rename_i host hhost
    have h0 : Ascii host := by
      split at hhost
      · exact hostName_ascii hhost
      · cases hhost; exact ascii_nil
    have h1 : Ascii (if ':' ∈ host then '[' :: host ++ [']'] else host) := by
      split
      · rw [ascii_append, ascii_cons, ascii_cons]
        exact ⟨⟨by decide, h0⟩, by decide, ascii_nil⟩
      · exact h0
    split at hh
    · cases hh
    · cases hh; exact h1
    · cases hh
      split
      · exact h1
      · rw [ascii_append, ascii_cons]; exact ⟨h1, by decide, intStr_ascii _⟩

theorem authUri_ascii {netloc a : Str} (h : authUri netloc = some a) : Ascii a := by
  unfold authUri at h
  split at h
  · cases h
  · simp only at h
    split at h
    · cases h
    · split at h
      · cases h; exact quoteText_ascii authSafe_low _
      · cases h
        rw [ascii_append, ascii_cons]
        exact ⟨quoteText_ascii authSafe_low _, by decide, quoteText_ascii authSafe_low _⟩

theorem encodeNetloc_ascii {idna : Str → Except PyErr Bytes} {lower : Str → Str} {netloc n : Str}
    (h : encodeNetloc idna lower netloc = .ok n) : Ascii n := by
  unfold encodeNetloc at h
  split at h
  · cases h
  · rename_i host hh
    split at h
    · cases h; exact hostUri_ascii hh
    · rename_i a ha
      cases h
      rw [ascii_append, ascii_cons]; exact ⟨authUri_ascii ha, by decide, hostUri_ascii hh⟩

theorem urlunsplit_ascii (usesNetloc : Str → Bool) {u : Split} (h1 : Ascii u.scheme) (h2 : Ascii u.netloc) (h3 : Ascii u.path)
    (h4 : Ascii u.query) (h5 : Ascii u.fragment) : Ascii (urlunsplit usesNetloc u) := by
  unfold urlunsplit
  simp only
  have a1 : Ascii (if u.netloc ≠ [] ∨ (usesNetloc u.scheme ∧ ¬ s%"//" <+: u.path) then
      s%"//" ++ u.netloc ++ (if u.path ≠ [] ∧ u.path.head? ≠ some '/' then '/' :: u.path else u.path)
    else u.path) := by
    split
    · rw [ascii_append, ascii_append]
      refine ⟨⟨by unfold Ascii; decide, h2⟩, ?_⟩
      split
      · exact ascii_cons.2 ⟨by decide, h3⟩
      · exact h3
    · exact h3
  generalize (if u.netloc ≠ [] ∨ (usesNetloc u.scheme ∧ ¬ s%"//" <+: u.path) then
      s%"//" ++ u.netloc ++ (if u.path ≠ [] ∧ u.path.head? ≠ some '/' then '/' :: u.path else u.path)
    else u.path) = a at a1 ⊢
  have a2 : Ascii (if u.scheme ≠ [] then u.scheme ++ ':' :: a else a) := by
    split
    · rw [ascii_append, ascii_cons]; exact ⟨h1, by decide, a1⟩
    · exact a1
  generalize (if u.scheme ≠ [] then u.scheme ++ ':' :: a else a) = b at a2 ⊢
  have a3 : Ascii (if u.query ≠ [] then b ++ '?' :: u.query else b) := by
    split
    · rw [ascii_append, ascii_cons]; exact ⟨a2, by decide, h4⟩
    · exact a2
  split
  · rw [ascii_append, ascii_cons]; exact ⟨a3, by decide, h5⟩
  · exact a3

theorem quotePlusText_ascii {safe : List UInt8} (hs : ∀ b ∈ safe, b.toNat < 128) (s : Str) : Ascii (quotePlusText safe s) := by
  apply latin1_low
  intro x hx
  simp only [List.mem_map] at hx
  obtain ⟨y, hy, rfl⟩ := hx
  have := quote_low (32 :: safe) (by intro b hb; simp at hb; rcases hb with rfl | hb; decide; exact hs b hb) _ y hy
  split
  · decide
  · exact this

theorem fixPathSafe_low : ∀ b ∈ fixPathSafe, b.toNat < 128 := by decide
theorem fixQuerySafe_low : ∀ b ∈ fixQuerySafe, b.toNat < 128 := by decide

/-- **C95, ASCII.**  Whatever text is given, the URL made of it has ASCII characters only. -/
theorem C95_ascii (idna : Str → Except PyErr Bytes) (lower : Str → Str) (usesNetloc : Str → Bool) (isAlpha : Char → Bool)
    (hl : LowerOk lower) (s u : Str) :
    (iriToUri idna lower usesNetloc s = .ok u → ∀ c ∈ u, c.toNat < 128) ∧
    (urlFix idna lower usesNetloc isAlpha s = .ok u → ∀ c ∈ u, c.toNat < 128) := by
  constructor
  · intro h
    unfold iriToUri at h
    split at h
    · cases h
    · rename_i v hv
      split at h
      · cases h
      · rename_i n hn
        cases h
        exact urlunsplit_ascii usesNetloc (show Ascii v.scheme from urlsplit_scheme hl hv) (encodeNetloc_ascii hn) (quoteText_ascii pathSafe_low _)
          (quoteText_ascii querySafe_low _) (quoteText_ascii fragmentSafe_low _)
  · intro h
    unfold urlFix at h
    split at h
    · cases h
    · rename_i v hv
      split at h
      · cases h
      · rename_i n hn
        cases h
        exact urlunsplit_ascii usesNetloc (show Ascii v.scheme from urlsplit_scheme hl hv) (encodeNetloc_ascii hn) (quoteText_ascii fixPathSafe_low _)
          (quotePlusText_ascii fixQuerySafe_low _) (quotePlusText_ascii fixQuerySafe_low _)

/-! ### Web URLs -/

/-- Characters of a host made from the host name `r`. -/
def HostChar (r : Str) (c : Char) : Prop :=
  c.isLower = true ∨ c.isDigit = true ∨ c = '-' ∨ c = '.' ∨ (c ∈ r ∧ c.isUpper = false)

theorem splitOn_mem {d c : Char} {s p : Str} (hp : p ∈ splitOn d s) (hc : c ∈ p) : c ∈ s := by
  induction s generalizing p with
  | nil => simp [splitOn] at hp; subst hp; exact hc
  | cons x s ih =>
    unfold splitOn at hp
    split at hp
    · simp only [List.mem_cons] at hp
      rcases hp with rfl | hp
      · simp at hc
      · exact List.mem_cons_of_mem _ (ih hp hc)
    · split at hp
      · simp only [List.mem_cons, List.not_mem_nil, or_false] at hp
        subst hp
        simp at hc; simp [hc]
      · rename_i y ys hy
        simp only [List.mem_cons] at hp
        rcases hp with rfl | hp
        · simp only [List.mem_cons] at hc ⊢
          rcases hc with rfl | hc
          · exact Or.inl rfl
          · exact Or.inr (ih (by rw [hy]; simp) hc)
        · exact List.mem_cons_of_mem _ (ih (by rw [hy]; simp [hp]) hc)

theorem mapM_mem {idna : Str → Except PyErr Bytes} : ∀ {l : List Str} {parts : List Bytes}, l.mapM idna = .ok parts →
    (∀ b ∈ parts, ∃ x ∈ l, idna x = .ok b) ∧ parts.length = l.length
  | [], parts, h => by
    simp [List.mapM_nil, pure, Except.pure] at h
    subst h; simp
  | x :: l, parts, h => by
    rw [List.mapM_cons] at h
    cases hx : idna x with
    | error e => rw [hx] at h; simp [bind, Except.bind] at h
    | ok b =>
      cases hl : l.mapM idna with
      | error e => rw [hx, hl] at h; simp [bind, Except.bind] at h
      | ok bs =>
        rw [hx, hl] at h
        simp [bind, Except.bind, pure, Except.pure] at h
        subst h
        have ih := mapM_mem hl
        refine ⟨?_, by simp [ih.2]⟩
        intro c hc
        simp only [List.mem_cons] at hc
        rcases hc with rfl | hc
        · exact ⟨x, by simp, hx⟩
        · obtain ⟨y, hy, hy'⟩ := ih.1 c hc
          exact ⟨y, by simp [hy], hy'⟩

theorem joinDot_mem {x : UInt8} : ∀ {l : List Bytes}, x ∈ Wsgi.joinDot l → x = 46 ∨ ∃ b ∈ l, x ∈ b
  | [], h => by simp [Wsgi.joinDot] at h
  | [b], h => by simp [Wsgi.joinDot] at h; exact Or.inr ⟨b, by simp, h⟩
  | b :: c :: l, h => by
    rw [Wsgi.joinDot] at h
    simp only [List.mem_append, List.mem_cons] at h
    rcases h with h | h | h
    · exact Or.inr ⟨b, by simp, h⟩
    · exact Or.inl h
    · rcases joinDot_mem h with h | ⟨d, hd, h⟩
      · exact Or.inl h
      · exact Or.inr ⟨d, List.mem_cons_of_mem _ hd, h⟩

theorem joinDot_ne_nil : ∀ {l : List Bytes}, l ≠ [] → (∀ b ∈ l, b ≠ []) → Wsgi.joinDot l ≠ []
  | [], h, _ => absurd rfl h
  | [b], _, h => by simp only [Wsgi.joinDot]; exact h b (by simp)
  | b :: c :: l, _, _ => by simp [Wsgi.joinDot]

/-- An ASCII host name is left as it is. -/
theorem hostName_self (idna : Str → Except PyErr Bytes) {h : Str} (ha : Ascii h) : hostName idna h = .ok h := by
  have h1 : h.all (fun c => decide (c.toNat < 128)) = true := by simpa [Ascii] using ha
  unfold hostName Wsgi.encodeIdna Wsgi.asciiEncode
  rw [if_pos h1]
  simp only
  have h2 : (h.map fun c => UInt8.ofNat c.toNat).all (· < 128) = true := by
    simp only [List.all_map, List.all_eq_true, Function.comp_apply, decide_eq_true_eq]
    intro c hc
    rw [UInt8.lt_iff_toNat_lt]
    have := Utf8.byte_toNat (by have := ha c hc; omega : c.toNat < 256)
    unfold Utf8.byte at this
    rw [this]; exact ha c hc
  rw [if_pos h2]
  congr 1
  unfold Utf8.latin1
  rw [List.map_map]
  apply map_eq_self.2
  intro c hc
  simp only [Function.comp_apply]
  have := Utf8.byte_toNat (by have := ha c hc; omega : c.toNat < 256)
  unfold Utf8.byte at this
  rw [this, Utf8.ofNat_toNat]

/-- The characters of the host made from a host name. -/
theorem hostName_chars {idna : Str → Except PyErr Bytes} {lower : Str → Str} (hl : LowerOk lower) {r h : Str}
    (hi : IdnaOk idna (lower r)) (hh : hostName idna (lower r) = .ok h) : (∀ c ∈ h, HostChar r c) ∧ (r ≠ [] → h ≠ []) := by
  by_cases ha : Ascii (lower r)
  · rw [hostName_self idna ha] at hh
    cases hh
    refine ⟨?_, fun hr h0 => hr (hl.kept r h0)⟩
    intro c hc
    rcases hl.made r c hc (ha c hc) with h | h
    · exact Or.inl h
    · exact Or.inr (Or.inr (Or.inr (Or.inr h)))
  · have h1 : ¬ (lower r).all (fun c => decide (c.toNat < 128)) = true := by
      simpa [Ascii] using ha
    unfold hostName Wsgi.encodeIdna Wsgi.asciiEncode at hh
    rw [if_neg h1] at hh
    simp only at hh
    cases hm : (splitOn '.' (lower r)).mapM idna with
    | error e => rw [hm] at hh; simp [bind, Except.bind] at hh
    | ok parts =>
      rw [hm] at hh
      simp only [bind, Except.bind, pure, Except.pure] at hh
      obtain ⟨hp1, hp2⟩ := mapM_mem hm
      split at hh
      · cases hh
        constructor
        · intro c hc
          unfold Utf8.latin1 at hc
          simp only [List.mem_map] at hc
          obtain ⟨x, hx, rfl⟩ := hc
          rcases joinDot_mem hx with rfl | ⟨b, hb, hx⟩
          · right; right; right; left; decide
          · obtain ⟨l, hl1, hl2⟩ := hp1 b hb
            rcases ((hi ha l hl1 b hl2).2 x hx) with ⟨hlow, h | h | h | h⟩
            · exact Or.inl h
            · exact Or.inr (Or.inl h)
            · exact Or.inr (Or.inr (Or.inl h))
            · have := splitOn_mem hl1 h
              rcases hl.made r _ this (by rw [latin1_char]; exact hlow) with h | h
              · exact Or.inl h
              · exact Or.inr (Or.inr (Or.inr (Or.inr h)))
        · intro _
          rw [ne_eq, latin1_nil]
          have hne : lower r ≠ [] := by
            rintro h0; rw [h0] at ha; exact ha ascii_nil
          match parts, hp1, hp2 with
          | [], _, hp2 =>
            exfalso
            have hj := join_splitOn '.' (lower r)
            cases hs : splitOn '.' (lower r) with
            | nil => rw [hs] at hj; exact hne hj.symm
            | cons x xs => rw [hs] at hp2; simp at hp2
          | [b], hp1, hp2 =>
            obtain ⟨l, hl1, hl2⟩ := hp1 b (by simp)
            have hj := join_splitOn '.' (lower r)
            cases hs : splitOn '.' (lower r) with
            | nil => rw [hs] at hj; exact fun _ => hne hj.symm
            | cons x xs =>
              cases xs with
              | cons y ys => rw [hs] at hp2; simp at hp2
              | nil =>
                rw [hs] at hj hl1
                have hx : x = lower r := hj
                have hlx : l = x := by simpa using hl1
                simp only [Wsgi.joinDot]
                exact (hi ha l (by rw [hs, hlx]; simp) b hl2).1 (by rw [hlx, hx]; exact hne)
          | b :: c :: l, _, _ => simp [Wsgi.joinDot]
      · cases hh

theorem notUpper_lower {c : Char} (h : c.isUpper = false) : c.toLower = c := by
  unfold Char.toLower
  unfold Char.isUpper at h
  split
  · rename_i h1
    simp at h
    exfalso
    simp at h1
    have := h h1.1
    have h2 := h1.2
    revert this h2
    simp [Char.lt_def, Char.le_def, UInt32.lt_iff_toNat_lt, UInt32.le_iff_toNat_le]
  · rfl

theorem hostChar_facts {r : Str} {c : Char} (h : HostChar r c) :
    c.isUpper = false ∧ (∀ d ∈ s%"@[]/?#:\\", c = d → d ∈ r) := by
  rcases h with h | h | h | h | ⟨h1, h2⟩
  · constructor
    · unfold Char.isLower at h; unfold Char.isUpper
      simp only [Bool.and_eq_true, decide_eq_true_eq, ge_iff_le, Char.le_def, UInt32.le_iff_toNat_le] at h
      simp only [Bool.and_eq_false_iff, decide_eq_false_iff_not, ge_iff_le, Char.le_def, UInt32.le_iff_toNat_le]
      simp at h ⊢
      omega
    · rintro d hd rfl; exfalso; revert h; revert c; decide
  · constructor
    · unfold Char.isDigit at h; unfold Char.isUpper
      simp only [Bool.and_eq_true, decide_eq_true_eq, ge_iff_le, Char.le_def, UInt32.le_iff_toNat_le] at h
      simp only [Bool.and_eq_false_iff, decide_eq_false_iff_not, ge_iff_le, Char.le_def, UInt32.le_iff_toNat_le]
      simp at h ⊢
      omega
    · rintro d hd rfl; exfalso; revert h; revert c; decide
  · subst h; exact ⟨by decide, by intro d hd h; subst h; simp at hd⟩
  · subst h; exact ⟨by decide, by intro d hd h; subst h; simp at hd⟩
  · exact ⟨h2, by rintro d _ rfl; exact h1⟩

theorem lower_host {lower : Str → Str} (hl : LowerOk lower) {r h : Str} (ha : Ascii h) (hc : ∀ c ∈ h, HostChar r c) :
    lower h = h := by
  rw [hl.ascii h ha]
  exact map_eq_self.2 fun c hc' => notUpper_lower (hostChar_facts (hc c hc')).1

/-- A host as it is written in an authority. -/
def hostText (h : Str) : Str := if ':' ∈ h then '[' :: h ++ [']'] else h

/-- A port as it is written in an authority. -/
def portText : Option Int → Str
  | none => []
  | some p => if p = 0 then [] else ':' :: intStr p

/-- The port that is read from what is written. -/
def readPort : Option Int → Option Int
  | none => none
  | some p => if p = 0 then none else some p

theorem intStr_digits {p : Int} (hp : 0 ≤ p) : ∀ c ∈ intStr p, IsDig c := by
  obtain ⟨n, rfl⟩ := Int.eq_ofNat_of_zero_le hp
  exact natStr_digits n

theorem intStr_ne_nil (p : Int) : intStr p ≠ [] := by
  cases p with
  | ofNat n => exact natStr_ne_nil n
  | negSucc n => show '-' :: natStr (n + 1) ≠ []; simp

/-- What the port of an authority can be. -/
def PortOk (p : Option Int) : Prop := ∀ n, p = some n → 0 ≤ n ∧ n ≤ 65535

theorem portText_chars {p : Option Int} (hp : PortOk p) : ∀ c ∈ portText p, c = ':' ∨ IsDig c := by
  intro c hc
  unfold portText at hc
  split at hc
  · simp at hc
  · split at hc
    · simp at hc
    · rename_i n _
      simp only [List.mem_cons] at hc
      rcases hc with h | h
      · exact Or.inl h
      · exact Or.inr (intStr_digits (hp n rfl).1 c h)

theorem portText_no {p : Option Int} (hp : PortOk p) {d : Char} (hd : d ∈ s%"@[]/?#\\") : d ∉ portText p := by
  intro h
  rcases portText_chars hp d h with rfl | h'
  · revert hd; decide
  · unfold IsDig at h'; clear h; revert h'; revert d; decide

theorem partition_host {h : Str} (hc : ':' ∉ h) (p : Option Int) :
    partition ':' (h ++ portText p) = (h, (portText p).drop 1) := by
  unfold partition portText
  split
  · rw [List.append_nil, split1_none ':' h hc]; rfl
  · split
    · rw [List.append_nil, split1_none ':' h hc]; rfl
    · rw [split1_some ':' h _ hc]; rfl

/-- Reading the host and port that were written. -/
theorem hostInfo_written {n : Str} {o : Option Str} {h : Str} {p : Option Int} (hp : PortOk p)
    (hu : userSplit n = (o, hostText h ++ portText p)) (h1 : '[' ∉ h) (h2 : ']' ∉ h) :
    hostInfo n = (h, (portText p).drop 1) := by
  unfold hostInfo
  simp only [hu]
  unfold hostText
  by_cases hc : ':' ∈ h
  · rw [if_pos hc]
    have e : split1 '[' ('[' :: h ++ [']'] ++ portText p) = ([], some (h ++ ']' :: portText p)) := by
      simp [split1]
    rw [e]
    simp only
    have e2 : partition ']' (h ++ ']' :: portText p) = (h, portText p) := by
      unfold partition; rw [split1_some ']' h _ h2]; rfl
    rw [e2]
    simp only
    have e3 := partition_host (h := []) (by simp) p
    rw [List.nil_append] at e3
    rw [e3]
  · rw [if_neg hc]
    have : '[' ∉ h ++ portText p := by
      simp only [List.mem_append, not_or]
      exact ⟨h1, portText_no hp (by decide)⟩
    rw [split1_none '[' _ this]
    simp only
    exact partition_host hc p

theorem portOf_written {n h : Str} {p : Option Int} (hp : PortOk p) (hi : hostInfo n = (h, (portText p).drop 1)) :
    portOf n = .ok (readPort p) := by
  unfold portOf readPort
  rw [hi]
  simp only
  cases p with
  | none => simp [portText]
  | some q =>
    simp only [portText]
    by_cases hq : q = 0
    · simp [hq]
    · rw [if_neg hq, if_neg hq]
      simp only [List.drop_one, List.tail_cons]
      cases hs : intStr q with
      | nil => exact absurd hs (intStr_ne_nil q)
      | cons x xs =>
        simp only
        rw [← hs, intOf_intStr]
        simp only
        rw [if_pos (hp q rfl)]

theorem portOf_ok {n : Str} {p : Option Int} (h : portOf n = .ok p) : PortOk p := by
  unfold portOf at h
  split at h
  · cases h; intro n hn; cases hn
  · split at h
    · cases h
    · split at h
      · rename_i hh
        cases h; intro n hn; cases hn; exact hh
      · cases h

/-- The host part of an authority, in closed form. -/
theorem hostUri_ok {idna : Str → Except PyErr Bytes} {lower : Str → Str} (hl : LowerOk lower) {netloc x : Str}
    (h : hostUri idna lower netloc = .ok x) (hr : (hostInfo netloc).1 ≠ []) :
    ∃ host p, hostName idna (lower (hostInfo netloc).1) = .ok host ∧ portOf netloc = .ok p ∧ x = hostText host ++ portText p := by
  unfold hostUri at h
  simp only at h
  have hne : lower (hostInfo netloc).1 ≠ [] := fun h0 => hr (hl.kept _ h0)
  rw [if_pos hne] at h
  split at h
  · cases h
  · rename_i host hhost
    split at h
    · cases h
    · rename_i hp
      cases h
      exact ⟨host, none, hhost, hp, by simp [hostText, portText]⟩
    · rename_i p hp
      cases h
      refine ⟨host, some p, hhost, hp, ?_⟩
      simp only [hostText, portText]
      split <;> simp

theorem hostUri_self {idna : Str → Except PyErr Bytes} {lower : Str → Str} {n h : Str} {p : Option Int}
    (hp : PortOk p) (hne : h ≠ []) (ha : Ascii h) (hlow : lower h = h) (hi : hostInfo n = (h, (portText p).drop 1)) :
    hostUri idna lower n = .ok (hostText h ++ portText p) := by
  unfold hostUri
  simp only [hi, hlow]
  rw [if_pos hne, hostName_self idna ha]
  simp only
  rw [portOf_written hp hi]
  unfold hostText
  cases p with
  | none => simp [readPort, portText]
  | some q =>
    simp only [readPort, portText]
    by_cases hq : q = 0
    · simp [hq]
    · simp [hq]

/-- User name and password are written so that they are read back and written the same. -/
theorem authUri_self {netloc a : Str} (h : authUri netloc = some a) {n x : Str} (hn : userSplit n = (some a, x)) :
    authUri n = some a := by
  unfold authUri at h
  split at h
  · cases h
  · rename_i info _
    simp only at h
    split at h
    · cases h
    · rename_i hne
      have hcol : ':' ∉ (split1 ':' info).1 := (split1_parts ':' info).1
      have hq : ':' ∉ quoteText authSafe (split1 ':' info).1 :=
        quoteText_no authSafe_low (by decide) (by decide) (Or.inr hcol)
      split at h
      · rename_i hp
        cases h
        unfold authUri
        rw [hn]
        simp only
        rw [split1_none ':' _ hq]
        simp only [Option.getD_none]
        have : quoteText authSafe (split1 ':' info).1 ≠ [] := by
          rw [ne_eq, quoteText_nil]; intro h0; exact hne ⟨h0, hp⟩
        rw [if_neg (by simp [this]), if_pos trivial, quoteText_idem authSafe_low (by decide)]
      · rename_i hp
        cases h
        unfold authUri
        rw [hn]
        simp only
        rw [split1_some ':' _ _ hq]
        simp only [Option.getD_some]
        have : quoteText authSafe ((split1 ':' info).2.getD []) ≠ [] := by
          rw [ne_eq, quoteText_nil]; exact hp
        rw [if_neg (by simp [this]), if_neg this, quoteText_idem authSafe_low (by decide), quoteText_idem authSafe_low (by decide)]

theorem authUri_no {netloc a : Str} (h : authUri netloc = some a) {d : Char} (hd : d ∈ s%"[]/?#\\") (hs : d = '/' → d ∉ netloc) : d ∉ a := by
  have h37 : d ≠ '%' := by rintro rfl; revert hd; decide
  have hal : Urls.alwaysSafe (Utf8.byte d.toNat) = false := by clear hs h37; revert d; decide
  have hcol : d ≠ ':' := by rintro rfl; revert hd; decide
  have key : ∀ s : Str, (d = '/' → d ∉ s) → d ∉ quoteText authSafe s := by
    intro s hs'
    apply quoteText_no authSafe_low h37 hal
    by_cases h1 : d = '/'
    · exact Or.inr (hs' h1)
    · left; clear hs h37 hal hcol hs'; revert h1; revert d; decide
  unfold authUri at h
  split at h
  · cases h
  · rename_i info hinfo
    have hsub : ∀ c ∈ info, c ∈ netloc := by
      unfold userSplit at hinfo
      split at hinfo
      · cases hinfo
      · rename_i u x hu
        cases hinfo
        intro c hc
        rw [(rsplit1_some hu).1]; simp [hc]
    have k1 := key (split1 ':' info).1 (fun h1 h2 => hs h1 (hsub _ ((split1_parts ':' info).2.1 _ h2)))
    have k2 := key ((split1 ':' info).2.getD []) (fun h1 h2 => hs h1 (hsub _ ((split1_parts ':' info).2.2 _ h2)))
    simp only at h
    split at h
    · cases h
    · split at h
      · cases h; exact k1
      · cases h
        simp only [List.mem_append, List.mem_cons, not_or]
        exact ⟨k1, hcol, k2⟩

theorem userSplit_sub (netloc : Str) : '@' ∉ (userSplit netloc).2 ∧ ∀ c ∈ (userSplit netloc).2, c ∈ netloc := by
  unfold userSplit
  split
  · rename_i h; exact ⟨rsplit1_none.1 h, fun c hc => hc⟩
  · rename_i u x h
    obtain ⟨h1, h2⟩ := rsplit1_some h
    exact ⟨h2, fun c hc => by rw [h1]; simp [hc]⟩

theorem hostInfo_sub (netloc : Str) : ∀ c ∈ (hostInfo netloc).1, c ∈ (userSplit netloc).2 := by
  intro c hc
  unfold hostInfo at hc
  simp only at hc
  split at hc
  · rename_i br hbr
    have h1 := (split1_parts '[' (userSplit netloc).2).2.2
    rw [hbr] at h1
    exact h1 c ((split1_parts ']' br).2.1 c hc)
  · exact (split1_parts ':' (userSplit netloc).2).2.1 c hc

/-- **The authority.**  Making it twice is making it once, and it has no delimiters of other
parts. -/
theorem encodeNetloc_self {idna : Str → Except PyErr Bytes} {lower : Str → Str} (hl : LowerOk lower) {netloc n : Str}
    (hi : IdnaOk idna (lower (hostInfo netloc).1)) (h : encodeNetloc idna lower netloc = .ok n) (hr : (hostInfo netloc).1 ≠ [])
    (hb1 : '[' ∉ (hostInfo netloc).1) (hb2 : ']' ∉ (hostInfo netloc).1) (hd : ∀ c ∈ s%"/?#", c ∉ netloc) :
    encodeNetloc idna lower n = .ok n ∧ n ≠ [] ∧ (∀ c ∈ s%"/?#", c ∉ n) ∧ ('[' ∈ n ↔ ']' ∈ n) ∧
    (∃ host p, hostName idna (lower (hostInfo netloc).1) = .ok host ∧ portOf netloc = .ok p ∧
      (hostInfo n).1 = host ∧ portOf n = .ok (readPort p)) ∧ ('\\' ∉ netloc → '\\' ∉ n) := by
  unfold encodeNetloc at h
  split at h
  · cases h
  · rename_i x hx
    obtain ⟨host, p, hh, hp, rfl⟩ := hostUri_ok hl hx hr
    have hpo := portOf_ok hp
    obtain ⟨hc, hne⟩ := hostName_chars hl hi hh
    have hne := hne hr
    have ha := hostName_ascii hh
    have hlow := lower_host hl ha hc
    have hno : ∀ d ∈ s%"@[]/?#:\\", d ∉ (hostInfo netloc).1 → d ∉ host := by
      intro d hd' h1 h2
      exact h1 ((hostChar_facts (hc d h2)).2 d hd' rfl)
    have hat : '@' ∉ (hostInfo netloc).1 := fun h0 => (userSplit_sub netloc).1 (hostInfo_sub netloc _ h0)
    have hdel : ∀ c ∈ s%"/?#", c ∉ host := by
      intro c hc'
      apply hno c (by revert c; decide)
      intro h0
      exact hd c hc' ((userSplit_sub netloc).2 c (hostInfo_sub netloc c h0))
    have hl1 : '[' ∉ host := hno _ (by decide) hb1
    have hl2 : ']' ∉ host := hno _ (by decide) hb2
    have hx_at : '@' ∉ hostText host ++ portText p := by
      simp only [List.mem_append, not_or]
      refine ⟨?_, portText_no hpo (by decide)⟩
      unfold hostText
      split
      · simp; exact hno _ (by decide) hat
      · exact hno _ (by decide) hat
    have hx_del : ∀ c ∈ s%"/?#\\", c ∉ host → c ∉ hostText host ++ portText p := by
      intro c hc' hch
      simp only [List.mem_append, not_or]
      refine ⟨?_, portText_no hpo (by clear hch; revert c; decide)⟩
      unfold hostText
      split
      · simp only [List.cons_append, List.mem_cons, List.mem_append, List.not_mem_nil, or_false, not_or]
        refine ⟨?_, hch, ?_⟩ <;> (clear hch; revert c; decide)
      · exact hch
    have hx_br : '[' ∈ hostText host ++ portText p ↔ ']' ∈ hostText host ++ portText p := by
      have e1 : '[' ∉ portText p := portText_no hpo (by decide)
      have e2 : ']' ∉ portText p := portText_no hpo (by decide)
      unfold hostText
      split
      · simp
      · simp [e1, e2, hl1, hl2]
    have hbs : '\\' ∉ netloc → '\\' ∉ host := fun h0 => hno _ (by decide)
      (fun h1 => h0 ((userSplit_sub netloc).2 _ (hostInfo_sub netloc _ h1)))
    split at h
    · rename_i hau
      cases h
      have hu : userSplit (hostText host ++ portText p) = (none, hostText host ++ portText p) := by
        unfold userSplit; rw [rsplit1_none.2 hx_at]
      have hinfo := hostInfo_written hpo hu hl1 hl2
      refine ⟨?_, ?_, fun c hc' => hx_del c (by revert c; decide) (hdel c hc'), hx_br,
        ⟨host, p, hh, hp, by rw [hinfo], portOf_written hpo hinfo⟩, fun h0 => hx_del _ (by decide) (hbs h0)⟩
      · unfold encodeNetloc
        rw [hostUri_self hpo hne ha hlow hinfo]
        simp only
        have : authUri (hostText host ++ portText p) = none := by unfold authUri; rw [hu]
        rw [this]
      · unfold hostText; split <;> simp [hne]
    · rename_i a hau
      cases h
      have hu : userSplit (a ++ '@' :: (hostText host ++ portText p)) = (some a, hostText host ++ portText p) := by
        unfold userSplit; rw [rsplit1_eq hx_at]
      have hinfo := hostInfo_written hpo hu hl1 hl2
      refine ⟨?_, by simp, ?_, ?_, ⟨host, p, hh, hp, by rw [hinfo], portOf_written hpo hinfo⟩, ?_⟩
      · unfold encodeNetloc
        rw [hostUri_self hpo hne ha hlow hinfo]
        simp only
        rw [authUri_self hau hu]
      · intro c hc'
        simp only [List.mem_append, List.mem_cons, not_or]
        refine ⟨authUri_no hau (by revert c; decide) (fun _ => hd c hc'), ?_, ?_⟩
        · revert c; decide
        · have := hx_del c (by revert c; decide) (hdel c hc')
          simpa only [List.mem_append, not_or] using this
      · have e1 : '[' ∉ a := authUri_no hau (by decide) (by intro h0; cases h0)
        have e2 : ']' ∉ a := authUri_no hau (by decide) (by intro h0; cases h0)
        generalize hostText host ++ portText p = y at hx_br
        simp [e1, e2, hx_br]
      · intro h0
        simp only [List.mem_append, List.mem_cons, not_or]
        refine ⟨authUri_no hau (by decide) (by intro h0; cases h0), by decide, ?_⟩
        have := hx_del _ (by decide) (hbs h0)
        simpa only [List.mem_append, not_or] using this

/-- An optional part with its delimiter. -/
def optText (d : Char) (q : Str) : Str := if q = [] then [] else d :: q

/-- Splitting a URL whose parts are free of each other's delimiters. -/
theorem splitRest_web (scheme host p q f : Str) (hh : ∀ c ∈ s%"/?#", c ∉ host)
    (hb : '[' ∈ host ↔ ']' ∈ host) (hp : p = [] ∨ p.head? = some '/') (hp1 : '?' ∉ p) (hp2 : '#' ∉ p) (hq : '#' ∉ q) :
    splitRest scheme (s%"//" ++ (host ++ (p ++ optText '?' q ++ optText '#' f))) = .ok ⟨scheme, host, p, q, f⟩ := by
  have e2 : splitNetloc (host ++ (p ++ optText '?' q ++ optText '#' f)) = (host, p ++ optText '?' q ++ optText '#' f) := by
    apply span_eq
    · intro c hc
      have h1 : c ≠ '/' := fun h => hh '/' (by decide) (h ▸ hc)
      have h2 : c ≠ '?' := fun h => hh '?' (by decide) (h ▸ hc)
      have h3 : c ≠ '#' := fun h => hh '#' (by decide) (h ▸ hc)
      simp [h1, h2, h3]
    · intro c hc
      rcases hp with rfl | hp
      · unfold optText at hc
        split at hc
        · split at hc
          · simp at hc
          · simp at hc; subst hc; rfl
        · simp at hc; subst hc; rfl
      · cases p with
        | nil => simp at hp
        | cons x p =>
          simp at hp hc
          subst hp; subst hc; rfl
  have hnb : ¬ (('[' ∈ host ∧ ']' ∉ host) ∨ (']' ∈ host ∧ '[' ∉ host)) := by
    rw [hb]; simp
  have e5 : '#' ∉ p ++ optText '?' q := by
    simp only [List.mem_append, not_or]
    refine ⟨hp2, ?_⟩
    unfold optText
    split
    · simp
    · simp; exact hq
  have e3 : (split1 '#' (p ++ optText '?' q ++ optText '#' f)).1 = p ++ optText '?' q ∧
      (split1 '#' (p ++ optText '?' q ++ optText '#' f)).2.getD [] = f := by
    generalize p ++ optText '?' q = x at e5
    unfold optText
    split
    · rename_i h0; rw [List.append_nil, split1_none '#' x e5]; simp [h0]
    · rw [split1_some '#' x f e5]; simp
  have e4 : (split1 '?' (p ++ optText '?' q)).1 = p ∧ (split1 '?' (p ++ optText '?' q)).2.getD [] = q := by
    unfold optText
    split
    · rename_i h0; rw [List.append_nil, split1_none '?' p hp1]; simp [h0]
    · rw [split1_some '?' p q hp1]; simp
  unfold splitRest
  rw [if_pos (List.prefix_append _ _)]
  have e6 : (s%"//" ++ (host ++ (p ++ optText '?' q ++ optText '#' f))).drop 2 =
      host ++ (p ++ optText '?' q ++ optText '#' f) := by simp
  rw [e6, e2]
  simp only
  rw [if_neg hnb]
  simp only [e3, e4]

theorem urlunsplit_parts (usesNetloc : Str → Bool) {scheme : Str} (hs : Web scheme) {host p : Str} (hh : host ≠ [])
    (hp : p = [] ∨ p.head? = some '/') (q f : Str) :
    urlunsplit usesNetloc ⟨scheme, host, p, q, f⟩ =
      scheme ++ s%"://" ++ (host ++ (p ++ optText '?' q ++ optText '#' f)) := by
  have hs' : scheme ≠ [] := by rcases hs with rfl | rfl <;> decide
  unfold urlunsplit
  simp only
  have hx : ¬ (p ≠ [] ∧ p.head? ≠ some '/') := by
    rcases hp with rfl | hp
    · simp
    · rw [hp]; simp
  rw [if_pos (Or.inl hh), if_pos hs', if_neg hx]
  unfold optText
  by_cases hq : q = [] <;> by_cases hf : f = [] <;> simp [hq, hf]

/-- Taking the URL apart again gives the parts it was made of. -/
theorem urlsplit_urlunsplit {lower : Str → Str} (hl : LowerOk lower) (usesNetloc : Str → Bool) {scheme : Str} (hs : Web scheme)
    {host p q f : Str} (hne : host ≠ []) (hh : ∀ c ∈ s%"/?#", c ∉ host)
    (hb : '[' ∈ host ↔ ']' ∈ host) (hp : p = [] ∨ p.head? = some '/') (hp1 : '?' ∉ p) (hp2 : '#' ∉ p) (hq : '#' ∉ q) :
    urlsplit lower (urlunsplit usesNetloc ⟨scheme, host, p, q, f⟩) = .ok ⟨scheme, host, p, q, f⟩ := by
  have hl' : lower s%"https" = s%"https" := by
    rw [hl.ascii _ (by unfold Ascii; decide)]; decide
  rw [urlunsplit_parts usesNetloc hs hne hp, urlsplit_web lower hl' hs]
  exact splitRest_web scheme host p q f hh hb hp hp1 hp2 hq

/-- **C95, the URL made of a web address** with a host: it has the same scheme, the host in
lower case and encoded for the domain name system, the same port unless that is 0, and a path,
query and fragment of the same meaning; made a URL again it stays what it is.  Missing from the full
statement: addresses without a host, for which it is false. -/
theorem C95_iri_partial (idna : Str → Except PyErr Bytes) (lower : Str → Str) (usesNetloc : Str → Bool)
    (hl : LowerOk lower) (s u : Str) (v : Split) (hi : IdnaOk idna (lower (hostInfo v.netloc).1)) (hv : urlsplit lower s = .ok v) (hs : Web v.scheme)
    (hr : (hostInfo v.netloc).1 ≠ []) (hb1 : '[' ∉ (hostInfo v.netloc).1) (hb2 : ']' ∉ (hostInfo v.netloc).1)
    (h : iriToUri idna lower usesNetloc s = .ok u) :
    iriToUri idna lower usesNetloc u = .ok u ∧
    ∃ w host p, urlsplit lower u = .ok w ∧ w.scheme = v.scheme ∧
      hostName idna (lower (hostInfo v.netloc).1) = .ok host ∧ (hostInfo w.netloc).1 = host ∧
      portOf v.netloc = .ok p ∧ portOf w.netloc = .ok (if p = some 0 then none else p) ∧
      Percent.meaning (Utf8.encode w.path) = Percent.meaning (Utf8.encode v.path) ∧
      Percent.meaning (Utf8.encode w.query) = Percent.meaning (Utf8.encode v.query) ∧
      Percent.meaning (Utf8.encode w.fragment) = Percent.meaning (Utf8.encode v.fragment) := by
  unfold iriToUri at h
  rw [hv] at h
  simp only at h
  obtain ⟨hd, hpath, hp1, hp2, hq⟩ := urlsplit_spec hv
  have hnn : v.netloc ≠ [] := by
    intro h0; apply hr; rw [h0]; rfl
  split at h
  · cases h
  · rename_i n hn
    cases h
    obtain ⟨k1, k2, k3, k4, ⟨host, p, k5, k6, k7, k8⟩, _⟩ := encodeNetloc_self hl hi hn hr hb1 hb2 hd
    have hpath' : quoteText Urls.pathSafe v.path = [] ∨ (quoteText Urls.pathSafe v.path).head? = some '/' := by
      rcases hpath hnn with h0 | h0
      · exact Or.inl (quoteText_nil.2 h0)
      · exact Or.inr (quoteText_head (by decide) h0)
    have e := urlsplit_urlunsplit hl usesNetloc hs (f := quoteText Urls.fragmentSafe v.fragment) k2 k3 k4 hpath'
      (quoteText_no pathSafe_low (by decide) (by decide) (Or.inl (by decide)))
      (quoteText_no pathSafe_low (by decide) (by decide) (Or.inl (by decide)))
      (quoteText_no querySafe_low (c := '#') (s := v.query) (by decide) (by decide) (Or.inl (by decide)))
    refine ⟨?_, _, host, p, e, rfl, k5, k7, k6, ?_, quoteText_meaning pathSafe_low (by decide) _,
      quoteText_meaning querySafe_low (by decide) _, quoteText_meaning fragmentSafe_low (by decide) _⟩
    · unfold iriToUri
      rw [e]
      simp only [k1]
      rw [quoteText_idem pathSafe_low (by decide), quoteText_idem querySafe_low (by decide),
        quoteText_idem fragmentSafe_low (by decide)]
    · rw [k8]
      congr 1
      cases p with
      | none => rfl
      | some q =>
        simp only [readPort, Option.some.injEq]

theorem quotePlusText_idem {safe : List UInt8} (hs : ∀ b ∈ safe, b.toNat < 128) (h37 : (37 : UInt8) ∈ safe) (h43 : (43 : UInt8) ∈ safe)
    (s : Str) : quotePlusText safe (quotePlusText safe s) = quotePlusText safe s := by
  unfold quotePlusText
  have hall := (Urls.C68_quote_idempotent (32 :: safe) (by simp [h37]) (Utf8.encode s)).2
  have hlow : ∀ x ∈ (Urls.quote (32 :: safe) (Utf8.encode s)).map (fun b => if b = 32 then 43 else b), x.toNat < 128 ∧
      x ≠ 32 ∧ (Urls.alwaysSafe x = true ∨ x ∈ 32 :: safe) := by
    intro x hx
    simp only [List.mem_map] at hx
    obtain ⟨y, hy, rfl⟩ := hx
    split
    · exact ⟨by decide, by decide, Or.inr (List.mem_cons_of_mem _ h43)⟩
    · rename_i h0
      exact ⟨quote_low (32 :: safe) (by intro b hb; simp at hb; rcases hb with rfl | hb; decide; exact hs b hb) _ y hy,
        h0, hall y hy⟩
  rw [encode_latin1 fun x hx => (hlow x hx).1]
  generalize (Urls.quote (32 :: safe) (Utf8.encode s)).map (fun b => if b = 32 then 43 else b) = t at hlow
  congr 1
  induction t with
  | nil => rfl
  | cons x t ih =>
    have h1 := hlow x (by simp)
    rw [Urls.quote_cons, if_pos h1.2.2, List.map_append, ih fun y hy => hlow y (by simp [hy])]
    simp [h1.2.1]

theorem quotePlusText_no (s : Str) {d : Char} (hd : d ∈ s%"#\\") : d ∉ quotePlusText fixQuerySafe s := by
  have hn : d.toNat < 256 := by revert d; decide
  intro h
  unfold quotePlusText at h
  rw [mem_latin1 hn] at h
  simp only [List.mem_map] at h
  obtain ⟨y, hy, he⟩ := h
  have hall := (Urls.C68_quote_idempotent (32 :: fixQuerySafe) (by decide) (Utf8.encode s)).2 y hy
  split at he
  · clear hn; revert he; revert d; decide
  · subst he
    clear hy hn; rename_i h0; clear h0
    revert hall; revert d; decide

theorem fixSlashes_self (isAlpha : Char → Bool) {s : Str} (h1 : '\\' ∉ s) (h2 : s.head? ≠ some 'f') : fixSlashes isAlpha s = s := by
  have : (s.map fun c => if c = '\\' then '/' else c) = s := by
    apply map_eq_self.2
    intro c hc
    rw [if_neg]; intro h0; exact h1 (h0 ▸ hc)
  unfold fixSlashes
  simp only [this]
  split
  · simp at h2
  · rfl

theorem fixSlashes_no (isAlpha : Char → Bool) (s : Str) : '\\' ∉ fixSlashes isAlpha s := by
  have hm : '\\' ∉ s.map fun c => if c = '\\' then '/' else c := by
    simp only [List.mem_map, not_exists, not_and]
    intro c _ h
    split at h
    · revert h; decide
    · rename_i h0; exact h0 h
  unfold fixSlashes
  simp only
  split
  · rename_i c d rest heq
    rw [heq] at hm
    split
    · simp only [List.mem_append, List.mem_cons, not_or] at hm ⊢
      refine ⟨by decide, ?_⟩
      obtain ⟨_, _, _, _, _, _, _, k1, k2, k3, k4⟩ := hm
      exact ⟨k1, k2, k3, k4⟩
    · rw [heq]; exact hm
  · exact hm

theorem urlsplit_sub {lower : Str → Str} {url : Str} {u : Split} (h : urlsplit lower url = .ok u) : ∀ c ∈ u.netloc, c ∈ url := by
  have key : ∀ scheme x, splitRest scheme x = .ok u → ∀ c ∈ u.netloc, c ∈ x := by
    intro scheme x hx c hc
    unfold splitRest at hx
    simp only at hx
    generalize hn : (if s%"//" <+: x then splitNetloc (x.drop 2) else (([] : Str), x)) = n at hx
    have hn' : ∀ c ∈ n.1, c ∈ x := by
      intro c hc
      rw [← hn] at hc
      split at hc
      · exact List.mem_of_mem_drop (takeWhile_memP hc).2
      · simp at hc
    split at hx
    · cases hx
    · cases hx
      exact hn' c hc
  have hsub := (split1_parts ':' url).2.2
  unfold urlsplit at h
  split at h
  · exact key _ _ h
  · exact key _ _ h
  · rename_i pre rest _ heq
    rw [heq] at hsub
    split at h
    · exact fun c hc => hsub c (key _ _ h c hc)
    · split at h
      · exact fun c hc => hsub c (key _ _ h c hc)
      · exact key _ _ h

/-- **C95, a fixed web address** with a host: it has the same scheme, the host and port as above, a
path of the same meaning, and fixing it again changes nothing.  Missing from the full statement: addresses
without a host, for which it is false. -/
theorem C95_fix_partial (idna : Str → Except PyErr Bytes) (lower : Str → Str) (usesNetloc : Str → Bool) (isAlpha : Char → Bool)
    (hl : LowerOk lower) (s u : Str) (v : Split) (hi : IdnaOk idna (lower (hostInfo v.netloc).1)) (hv : urlsplit lower (s.map fun c => if c = '\\' then '/' else c) = .ok v)
    (hs : Web v.scheme) (hf : ¬ s%"file:" <+: s)
    (hr : (hostInfo v.netloc).1 ≠ []) (hb1 : '[' ∉ (hostInfo v.netloc).1) (hb2 : ']' ∉ (hostInfo v.netloc).1)
    (h : urlFix idna lower usesNetloc isAlpha s = .ok u) :
    urlFix idna lower usesNetloc isAlpha u = .ok u ∧
    ∃ w host p, urlsplit lower u = .ok w ∧ w.scheme = v.scheme ∧
      hostName idna (lower (hostInfo v.netloc).1) = .ok host ∧ (hostInfo w.netloc).1 = host ∧
      portOf v.netloc = .ok p ∧ portOf w.netloc = .ok (if p = some 0 then none else p) ∧
      Percent.meaning (Utf8.encode w.path) = Percent.meaning (Utf8.encode v.path) := by
  have hfs : fixSlashes isAlpha s = s.map fun c => if c = '\\' then '/' else c := by
    unfold fixSlashes
    simp only
    split
    · rename_i c d rest heq
      exfalso
      apply hf
      have key : ∀ (t x y : Str), t.map (fun c => if c = '\\' then '/' else c) = x ++ y → '/' ∉ x → x <+: t := by
        intro t x
        induction x generalizing t with
        | nil => intro y _ _; exact List.nil_prefix
        | cons a x ih =>
          intro y he hx
          cases t with
          | nil => simp at he
          | cons b t =>
            simp only [List.map_cons, List.cons_append, List.cons.injEq] at he
            simp only [List.mem_cons, not_or] at hx
            have hb : b = a := by
              have := he.1
              split at this
              · exact absurd this hx.1
              · exact this
            rw [hb]
            exact (List.prefix_cons_inj a).2 (ih t y he.2 hx.2)
      exact key s s%"file:" _ heq (by decide)
    · rfl
  unfold urlFix at h
  rw [hfs, hv] at h
  simp only at h
  obtain ⟨hd, hpath, hp1, hp2, hq⟩ := urlsplit_spec hv
  have hnn : v.netloc ≠ [] := by
    intro h0; apply hr; rw [h0]; rfl
  split at h
  · cases h
  · rename_i n hn
    cases h
    obtain ⟨k1, k2, k3, k4, ⟨host, p, k5, k6, k7, k8⟩, k9⟩ := encodeNetloc_self hl hi hn hr hb1 hb2 hd
    have hnb : '\\' ∉ n := by
      apply k9
      intro h0
      have := urlsplit_sub hv _ h0
      rw [← hfs] at this
      exact fixSlashes_no isAlpha s this
    have hpath' : quoteText fixPathSafe v.path = [] ∨ (quoteText fixPathSafe v.path).head? = some '/' := by
      rcases hpath hnn with h0 | h0
      · exact Or.inl (quoteText_nil.2 h0)
      · exact Or.inr (quoteText_head (by decide) h0)
    have e := urlsplit_urlunsplit hl usesNetloc hs (f := quotePlusText fixQuerySafe v.fragment) k2 k3 k4 hpath'
      (quoteText_no fixPathSafe_low (by decide) (by decide) (Or.inl (by decide)))
      (quoteText_no fixPathSafe_low (by decide) (by decide) (Or.inl (by decide)))
      (quotePlusText_no v.query (by decide))
    have e0 : fixSlashes isAlpha (urlunsplit usesNetloc ⟨v.scheme, n, quoteText fixPathSafe v.path,
        quotePlusText fixQuerySafe v.query, quotePlusText fixQuerySafe v.fragment⟩) = urlunsplit usesNetloc ⟨v.scheme, n,
        quoteText fixPathSafe v.path, quotePlusText fixQuerySafe v.query, quotePlusText fixQuerySafe v.fragment⟩ := by
      rw [urlunsplit_parts usesNetloc hs k2 hpath']
      apply fixSlashes_self
      · have h1 : '\\' ∉ v.scheme := by rcases hs with h | h <;> rw [h] <;> decide
        have h3 : '\\' ∉ quoteText fixPathSafe v.path :=
          quoteText_no fixPathSafe_low (by decide) (by decide) (Or.inl (by decide))
        have h4 : '\\' ∉ optText '?' (quotePlusText fixQuerySafe v.query) := by
          unfold optText; split
          · simp
          · simp only [List.mem_cons, not_or]; exact ⟨by decide, quotePlusText_no _ (by decide)⟩
        have h5 : '\\' ∉ optText '#' (quotePlusText fixQuerySafe v.fragment) := by
          unfold optText; split
          · simp
          · simp only [List.mem_cons, not_or]; exact ⟨by decide, quotePlusText_no _ (by decide)⟩
        simp only [List.mem_append, not_or]
        exact ⟨⟨h1, by decide⟩, hnb, ⟨h3, h4⟩, h5⟩
      · rcases hs with h | h <;> rw [h] <;> simp
    refine ⟨?_, _, host, p, e, rfl, k5, k7, k6, ?_, quoteText_meaning fixPathSafe_low (by decide) _⟩
    · unfold urlFix
      rw [e0, e]
      simp only [k1]
      rw [quoteText_idem fixPathSafe_low (by decide), quotePlusText_idem fixQuerySafe_low (by decide) (by decide),
        quotePlusText_idem fixQuerySafe_low (by decide) (by decide)]
    · rw [k8]
      congr 1
      cases p with
      | none => rfl
      | some q => simp only [readPort, Option.some.injEq]

/-- The schemes with an authority, for the examples: `scheme and scheme in uses_netloc`. -/
def demoUses (s : Str) : Bool := s = s%"http" || s = s%"https"

/-- An IDNA codec for the examples. -/
def demoIdna (_ : Str) : Except PyErr Bytes := .ok b%"xn--n3h"

/-- Lower case of ASCII letters, for the examples. -/
def demoLower (s : Str) : Str := s.map Char.toLower

theorem demoLower_ok : LowerOk demoLower := by
  refine ⟨fun s _ => rfl, ?_, fun s h => by simpa [demoLower] using h⟩
  intro s c hc hlow
  unfold demoLower at hc
  simp only [List.mem_map] at hc
  obtain ⟨d, hd, rfl⟩ := hc
  by_cases hu : d.isUpper = true
  · left
    have h0 : ∀ m < 128, (Char.ofNat m).isUpper = true → (Char.ofNat m).toLower.isLower = true := by decide +kernel
    have hd' : d.toNat < 128 := by
      unfold Char.isUpper at hu
      simp only [Bool.and_eq_true, decide_eq_true_eq, ge_iff_le, Char.le_def, UInt32.le_iff_toNat_le] at hu
      simp at hu
      omega
    have := h0 d.toNat hd'
    rw [Utf8.ofNat_toNat] at this
    exact this hu
  · right
    have hu' : d.isUpper = false := by simpa using hu
    rw [notUpper_lower hu']
    exact ⟨hd, hu'⟩

theorem demoIdna_ok (host : Str) : IdnaOk demoIdna host := by
  intro _ l _ b h
  cases h
  refine ⟨fun _ => by decide, ?_⟩
  intro x hx
  have h0 : ∀ x ∈ b%"xn--n3h", x.toNat < 128 ∧
    ((Char.ofNat x.toNat).isLower = true ∨ (Char.ofNat x.toNat).isDigit = true ∨ Char.ofNat x.toNat = '-') := by decide
  rcases h0 x hx with ⟨h1, h | h | h⟩
  · exact ⟨h1, Or.inl h⟩
  · exact ⟨h1, Or.inr (Or.inl h)⟩
  · exact ⟨h1, Or.inr (Or.inr (Or.inl h))⟩

example : iriToUri demoIdna demoLower demoUses s%"http://ü:p@☃:8080/ä b?x=ö#é" =
    .ok s%"http://%C3%BC:p@xn--n3h:8080/%C3%A4%20b?x=%C3%B6#%C3%A9" := by decide +kernel

example : urlFix demoIdna demoLower demoUses Char.isAlpha s%"HTTP://Example.com\\a b?x y" =
    .ok s%"http://example.com/a%20b?x+y" := by decide +kernel

example : ∃ v, urlsplit demoLower s%"http://ü:p@[::1]:8080/ä b?x=ö#é" = .ok v ∧ Web v.scheme ∧ (hostInfo v.netloc).1 = s%"::1" :=
  ⟨⟨s%"http", s%"ü:p@[::1]:8080", s%"/ä b", s%"x=ö", s%"é"⟩, by decide +kernel, Or.inl rfl, by decide +kernel⟩

/-- The full statement is false: without a host, a path that begins with several slashes loses two
of them, so that a second run changes the URL again, and a name in the path becomes the host. -/
theorem C95_host_false : ¬ ∀ (s u : Str) (v w : Split), urlsplit demoLower s = .ok v →
    iriToUri demoIdna demoLower demoUses s = .ok u → urlsplit demoLower u = .ok w →
    iriToUri demoIdna demoLower demoUses u = .ok u ∧ w.netloc = v.netloc := by
  intro h
  have := h s%"//////evil.com" s%"////evil.com" ⟨[], [], s%"////evil.com", [], []⟩ ⟨[], [], s%"//evil.com", [], []⟩
    (by decide +kernel) (by decide +kernel) (by decide +kernel)
  revert this
  decide +kernel

/-- The same in the words of an attacker: a reference to a path of this site becomes a reference to
another host. -/
theorem C95_redirect_limits : ∃ (s u : Str) (v w : Split), urlsplit demoLower s = .ok v ∧ v.netloc = [] ∧
    iriToUri demoIdna demoLower demoUses s = .ok u ∧ urlsplit demoLower u = .ok w ∧ w.netloc = s%"evil.com" :=
  ⟨s%"////evil.com", s%"//evil.com", ⟨[], [], s%"//evil.com", [], []⟩, ⟨[], s%"evil.com", [], [], []⟩,
    by decide +kernel, rfl, by decide +kernel, by decide +kernel, rfl⟩

/-- The IDNA codec as far as it matters here: the compatibility character `／` becomes a slash. -/
def foldIdna (l : Str) : Except PyErr Bytes := .ok (Utf8.encode (l.map fun c => if c = '／' then '/' else c))

/-- What is asked of the codec is needed: the normalisation of Python's codec makes a delimiter
of a compatibility character, and another host is addressed.  (From 3.6.9 on Python's `urlsplit`
refuses such hosts itself; the model follows the versions before.) -/
theorem C95_codec_limits : ∃ (s u : Str) (v w : Split), urlsplit demoLower s = .ok v ∧ v.netloc = s%"evil.com／.good.com" ∧
    v.path = [] ∧ iriToUri foldIdna demoLower demoUses s = .ok u ∧ urlsplit demoLower u = .ok w ∧ w.netloc = s%"evil.com" ∧
    ¬ IdnaOk foldIdna (demoLower (hostInfo v.netloc).1) := by
  refine ⟨s%"http://evil.com／.good.com", s%"http://evil.com/.good.com",
    ⟨s%"http", s%"evil.com／.good.com", [], [], []⟩, ⟨s%"http", s%"evil.com", s%"/.good.com", [], []⟩,
    by decide +kernel, rfl, rfl, by decide +kernel, by decide +kernel, rfl, ?_⟩
  intro h
  have e : demoLower (hostInfo s%"evil.com／.good.com").1 = s%"evil.com／.good.com" := by decide +kernel
  rw [show (hostInfo (Split.mk s%"http" s%"evil.com／.good.com" [] [] []).netloc).1 = (hostInfo s%"evil.com／.good.com").1 from rfl, e] at h
  have := (h (by unfold Ascii; decide +kernel) s%"com／" (by decide +kernel) b%"com/" (by decide +kernel)).2 47 (by decide)
  revert this
  decide +kernel

/-- `file:` addresses with a drive letter get their third slash. -/
theorem C95_drive (isAlpha : Char → Bool) (c d : Char) (rest : Str) (hc : isAlpha c = true) (hd : d = ':' ∨ d = '|')
    (hc' : c ≠ '\\') (hr : '\\' ∉ rest) :
    fixSlashes isAlpha (s%"file://" ++ c :: d :: '\\' :: rest) = s%"file:///" ++ c :: d :: '/' :: rest := by
  have hd' : d ≠ '\\' := by rcases hd with rfl | rfl <;> decide
  have hm : rest.map (fun c => if c = '\\' then '/' else c) = rest :=
    map_eq_self.2 fun c hc => by rw [if_neg]; intro h0; exact hr (h0 ▸ hc)
  unfold fixSlashes
  simp [hc', hd', hm, hc, hd]

end Verif.Props.IriP
