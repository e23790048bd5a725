import Verif.Props.RequestUrl
/-!
C91: the URLs of a request.
-/
namespace Verif.Props.ReqUrlP
open Verif Verif.Py Verif.ReqUrl

/-! ### Splitting and joining -/

theorem span_eq {p : Char → Bool} {a b : Str} (ha : ∀ c ∈ a, p c = true) (hb : ∀ c, b.head? = some c → p c = false) :
    ((a ++ b).takeWhile p, (a ++ b).dropWhile p) = (a, b) := by
  induction a with
  | nil =>
    cases b with
    | nil => rfl
    | cons x b =>
      have := hb x (by simp)
      simp [List.takeWhile, List.dropWhile, this]
  | cons x a ih =>
    have h1 := ha x (by simp)
    have h2 := ih (fun c hc => ha c (by simp [hc]))
    simp only [Prod.mk.injEq] at h2 ⊢
    simp [h1, h2.1, h2.2]

/-- The schemes of the web. -/
def Web (scheme : Str) : Prop := scheme = s%"http" ∨ scheme = s%"https"

theorem urlsplit_web (lower : Str → Str) (hl : lower s%"https" = s%"https") {scheme : Str} (hs : Web scheme) (rest : Str) :
    urlsplit lower (scheme ++ s%"://" ++ rest) = splitRest scheme (s%"//" ++ rest) := by
  rcases hs with rfl | rfl
  · unfold urlsplit
    have : split1 ':' (s%"http" ++ s%"://" ++ rest) = (s%"http", some (s%"//" ++ rest)) := by
      have := split1_some ':' s%"http" (s%"//" ++ rest) (by decide)
      simpa using this
    rw [this]; rfl
  · unfold urlsplit
    have : split1 ':' (s%"https" ++ s%"://" ++ rest) = (s%"https", some (s%"//" ++ rest)) := by
      have := split1_some ':' s%"https" (s%"//" ++ rest) (by decide)
      simpa using this
    rw [this]
    simp only
    rw [if_neg (by decide), if_pos, hl]
    have h1 : (s%"https").all schemeChar = true := by decide
    rw [h1]
    simp

/-- Splitting a URL whose parts are free of each other's delimiters. -/
theorem splitRest_parts (scheme host p : Str) (q f : Option Str) (hh : ∀ c ∈ s%"/?#", c ∉ host)
    (hb : '[' ∈ host ↔ ']' ∈ host) (hp : p.head? = some '/') (hp1 : '?' ∉ p) (hp2 : '#' ∉ p)
    (hq : ∀ x, q = some x → '#' ∉ x) :
    splitRest scheme (s%"//" ++ (host ++ p ++ (q.map ('?' :: ·)).getD [] ++ (f.map ('#' :: ·)).getD [])) =
      .ok ⟨scheme, host, p, q.getD [], f.getD []⟩ := by
  have e1 : s%"//" <+: s%"//" ++ (host ++ p ++ (q.map ('?' :: ·)).getD [] ++ (f.map ('#' :: ·)).getD []) :=
    List.prefix_append _ _
  have e2 : splitNetloc (host ++ (p ++ (q.map ('?' :: ·)).getD [] ++ (f.map ('#' :: ·)).getD [])) =
      (host, p ++ (q.map ('?' :: ·)).getD [] ++ (f.map ('#' :: ·)).getD []) := by
    apply span_eq
    · intro c hc
      have h1 : c ≠ '/' := fun h => hh '/' (by decide) (h ▸ hc)
      have h2 : c ≠ '?' := fun h => hh '?' (by decide) (h ▸ hc)
      have h3 : c ≠ '#' := fun h => hh '#' (by decide) (h ▸ hc)
      simp [h1, h2, h3]
    · intro c hc
      cases p with
      | nil => simp at hp
      | cons x p =>
        simp at hp hc
        subst hp; subst hc; rfl
  have hnb : ¬ (('[' ∈ host ∧ ']' ∉ host) ∨ (']' ∈ host ∧ '[' ∉ host)) := by
    rw [hb]; simp
  have e3 : ∀ x : Str, '#' ∉ x → split1 '#' (x ++ (f.map ('#' :: ·)).getD []) = (x, f) := by
    intro x hx
    cases f with
    | none => simpa using split1_none '#' x hx
    | some y => simpa using split1_some '#' x y hx
  have e4 : split1 '?' (p ++ (q.map ('?' :: ·)).getD []) = (p, q) := by
    cases q with
    | none => simpa using split1_none '?' p hp1
    | some y => simpa using split1_some '?' p y hp1
  have e5 : '#' ∉ p ++ (q.map ('?' :: ·)).getD [] := by
    simp only [List.mem_append, not_or]
    refine ⟨hp2, ?_⟩
    cases q with
    | none => simp
    | some y => have := hq y rfl; simp; exact this
  unfold splitRest
  rw [if_pos e1]
  have e6 : (s%"//" ++ (host ++ p ++ (q.map ('?' :: ·)).getD [] ++ (f.map ('#' :: ·)).getD [])).drop 2 =
      host ++ (p ++ (q.map ('?' :: ·)).getD [] ++ (f.map ('#' :: ·)).getD []) := by simp
  rw [e6, e2]
  simp only
  rw [if_neg hnb, e3 _ e5]
  simp only [e4]

/-- Joining the parts of a web URL. -/
theorem urlunsplit_web (usesNetloc : Str → Bool) {scheme : Str} (hs : Web scheme) {host p : Str} (hh : host ≠ [])
    (hp : p.head? = some '/') (q : Str) :
    urlunsplit usesNetloc ⟨scheme, host, p, q, []⟩ =
      scheme ++ s%"://" ++ host ++ p ++ (if q = [] then [] else '?' :: q) := by
  have hs' : scheme ≠ [] := by rcases hs with rfl | rfl <;> decide
  unfold urlunsplit
  simp only
  have hx : ¬ (p ≠ [] ∧ p.head? ≠ some '/') := by rw [hp]; simp
  rw [if_pos (Or.inl hh), if_pos hs', if_neg (by simp : ¬ (([] : Str) ≠ [])), if_neg hx]
  by_cases hq : q = []
  · simp [hq]
  · simp [hq]

/-- `uri_to_iri` of a web URL without fragment. -/
theorem uriToIri_web (lower label : Str → Str) (usesNetloc : Str → Bool) (hl : lower s%"https" = s%"https")
    {scheme : Str} (hs : Web scheme) {host h' p : Str} (q : Option Str) (hh : ∀ c ∈ s%"/?#", c ∉ host)
    (hb : '[' ∈ host ↔ ']' ∈ host) (hn : netlocIri lower label host = .ok h') (hne : h' ≠ [])
    (hp : p.head? = some '/') (hp1 : '?' ∉ p) (hp2 : '#' ∉ p) (hq : ∀ x, q = some x → '#' ∉ x)
    (hp3 : (safeUnquoteText Urls.pathUnsafe p).head? = some '/') :
    uriToIri lower label usesNetloc (scheme ++ s%"://" ++ (host ++ p ++ (q.map ('?' :: ·)).getD [])) =
      .ok (scheme ++ s%"://" ++ h' ++ safeUnquoteText Urls.pathUnsafe p ++
        (if safeUnquoteText Urls.queryUnsafe (q.getD []) = [] then []
         else '?' :: safeUnquoteText Urls.queryUnsafe (q.getD []))) := by
  unfold uriToIri
  rw [urlsplit_web lower hl hs]
  have := splitRest_parts scheme host p q none hh hb hp hp1 hp2 hq
  simp only [Option.map_none, Option.getD_none, List.append_nil] at this
  rw [this]
  simp only [hn]
  have e : safeUnquoteText Urls.queryUnsafe [] = [] := by decide +kernel
  rw [e, urlunsplit_web usesNetloc hs hne hp3]

/-! ### Quoted paths -/

theorem unquote_quote' (u u' safe : List UInt8) (h37 : (37 : UInt8) ∉ safe)
    (hu : ∀ b, b ∈ u' ↔ b ∈ u ∧ ¬ (Urls.alwaysSafe b = true ∨ b ∈ safe)) (s : Bytes) :
    Urls.safeUnquote u (Urls.quote safe s) = escBytes u' s := by
  rw [Urls.C39_scan]
  induction s with
  | nil => rfl
  | cons b s ih =>
    rw [Urls.quote_cons, escBytes_cons]
    split
    · rename_i hb
      have hb37 : b ≠ 37 := by
        intro h; subst h
        rcases hb with hb | hb
        · exact absurd hb (by decide)
        · exact h37 hb
      have hbu : b ∉ u' := fun h => ((hu b).1 h).2 hb
      rw [if_neg hbu, List.singleton_append, Urls.decode_ne hb37, ih]; rfl
    · rename_i hb
      simp only [List.cons_append, List.nil_append]
      rw [Urls.decode_esc (Urls.hexDigit_spec b).1, ih]
      by_cases h : b ∈ u
      · rw [if_pos h, if_pos ((hu b).2 ⟨h, hb⟩)]; rfl
      · rw [if_neg h, if_neg (fun h' => h ((hu b).1 h').1)]; rfl

theorem quote_append (safe : List UInt8) (a b : Bytes) : Urls.quote safe (a ++ b) = Urls.quote safe a ++ Urls.quote safe b := by
  simp [Urls.quote]

theorem quote_low (safe : List UInt8) (hs : ∀ b ∈ safe, b.toNat < 128) (s : Bytes) :
    ∀ b ∈ Urls.quote safe s, b.toNat < 128 := by
  intro b hb
  rcases quote_mem hb with h | rfl | ⟨h, _⟩
  · exact alwaysSafe_low h
  · decide
  · exact hs b h

theorem encode_latin1 {b : Bytes} (h : ∀ x ∈ b, x.toNat < 128) : Utf8.encode (Utf8.latin1 b) = b := by
  rw [Utf8.encode_ascii (latin1_low h), latin1_bytes]

/-- `urls.rstrip('/')` after quoting is stripping the bytes before. -/
def rstripB (s : Bytes) : Bytes := (s.reverse.dropWhile (· = 47)).reverse

theorem rstrip_quote (s : Bytes) :
    rstripP (· = '/') (Utf8.latin1 (Urls.quote slashSafe s)) = Utf8.latin1 (Urls.quote slashSafe (rstripB s)) := by
  obtain ⟨r, rfl⟩ : ∃ r : Bytes, s = r.reverse := ⟨s.reverse, by simp⟩
  induction r with
  | nil => rfl
  | cons b r ih =>
    rw [List.reverse_cons, quote_append, latin1_append]
    by_cases h : b = 47
    · subst h
      have e1 : Utf8.latin1 (Urls.quote slashSafe [47]) = ['/'] := by decide
      have e2 : rstripB (r.reverse ++ [47]) = rstripB r.reverse := by simp [rstripB]
      rw [e1, e2, rstripP_append _ _ _ (by simp), ih]
    · have e2 : rstripB (r.reverse ++ [b]) = r.reverse ++ [b] := by simp [rstripB, List.dropWhile, h]
      rw [e2, quote_append, latin1_append]
      apply rstripP_of_last
      intro c hc
      have hlast : ∀ x, (Urls.quote slashSafe [b]).getLast? = some x → x ≠ 47 := by
        intro x hx
        have hq : Urls.quote slashSafe [b] = if Urls.alwaysSafe b ∨ b ∈ slashSafe then [b] else
            [37, Urls.hexDigit (b / 16), Urls.hexDigit (b % 16)] := by
          rw [Urls.quote_cons]; simp [Urls.quote]
        rw [hq] at hx
        split at hx
        · simp at hx; exact hx ▸ h
        · simp at hx
          intro h47
          have := (Urls.hexDigit_spec b).2.2
          rw [hx, h47] at this
          revert this; decide
      have hne : Urls.quote slashSafe [b] ≠ [] := by
        rw [Urls.quote_cons]; split <;> simp
      obtain ⟨x, hx⟩ : ∃ x, (Urls.quote slashSafe [b]).getLast? = some x := by
        cases hg : (Urls.quote slashSafe [b]).getLast? with
        | none => exact absurd (List.getLast?_eq_none_iff.1 hg) hne
        | some x => exact ⟨x, rfl⟩
      have hne' : Utf8.latin1 (Urls.quote slashSafe [b]) ≠ [] := by simpa [Utf8.latin1] using hne
      have : (Utf8.latin1 (Urls.quote slashSafe [b])).getLast? = some (Char.ofNat x.toNat) := by
        unfold Utf8.latin1; rw [List.getLast?_map, hx]; rfl
      rw [List.getLast?_append, this] at hc
      simp at hc
      subst hc
      simp
      intro hh
      have h' := congrArg Char.toNat hh
      rw [latin1_char] at h'
      apply hlast x hx
      rw [← Utf8.byte_of_toNat x, h']; decide

/-- The bytes kept as escapes in the path of a URL shown to the user. -/
def keptBytes : List UInt8 := b%"%;?"

theorem pathUnsafe_kept (b : UInt8) : b ∈ keptBytes ↔ b ∈ Urls.pathUnsafe ∧ ¬ (Urls.alwaysSafe b = true ∨ b ∈ slashSafe) := by
  have := Urls.forall_byte (fun b => decide (b ∈ keptBytes ↔ b ∈ Urls.pathUnsafe ∧ ¬ (Urls.alwaysSafe b = true ∨ b ∈ slashSafe)))
    (by decide +kernel) b
  exact of_decide_eq_true this

theorem safeUnquote_path (s : Bytes) :
    safeUnquoteText Urls.pathUnsafe (Utf8.latin1 (Urls.quote slashSafe s)) = Utf8.decode (escBytes keptBytes s) := by
  unfold safeUnquoteText
  rw [encode_latin1 (quote_low _ (by decide) s), unquote_quote' _ keptBytes _ (by decide) pathUnsafe_kept]

theorem escBytes_append (u : List UInt8) (a b : Bytes) : escBytes u (a ++ b) = escBytes u a ++ escBytes u b := by
  simp [escBytes]

/-- Text with the given ASCII characters as escapes. -/
def escText (u : List UInt8) (t : Str) : Str :=
  t.flatMap fun c => if c.toNat < 128 ∧ Utf8.byte c.toNat ∈ u then
    ['%', Char.ofNat (Urls.hexDigit (Utf8.byte c.toNat / 16)).toNat, Char.ofNat (Urls.hexDigit (Utf8.byte c.toNat % 16)).toNat]
    else [c]

theorem escText_cons (u : List UInt8) (c : Char) (t : Str) : escText u (c :: t) =
    (if c.toNat < 128 ∧ Utf8.byte c.toNat ∈ u then
    ['%', Char.ofNat (Urls.hexDigit (Utf8.byte c.toNat / 16)).toNat, Char.ofNat (Urls.hexDigit (Utf8.byte c.toNat % 16)).toNat]
    else [c]) ++ escText u t := by simp [escText]

theorem hexDigit_low (b : UInt8) : (Urls.hexDigit (b / 16)).toNat < 128 ∧ (Urls.hexDigit (b % 16)).toNat < 128 :=
  ⟨alwaysSafe_low (Urls.hexDigit_spec b).2.1, alwaysSafe_low (Urls.hexDigit_spec b).2.2⟩

/-- Escaping bytes of an encoded text is encoding the escaped text. -/
theorem escBytes_encode (u : List UInt8) (hu : ∀ b ∈ u, b.toNat < 128) (t : Str) :
    escBytes u (Utf8.encode t) = Utf8.encode (escText u t) := by
  induction t with
  | nil => rfl
  | cons c t ih =>
    rw [Utf8.encode_cons, escBytes_append, ih, escText_cons, Utf8.encode_append]
    congr 1
    by_cases hc : c.toNat < 128
    · rw [Utf8.encChar_ascii hc, escBytes_cons]
      simp only [hc, true_and]
      split
      · rw [Utf8.encode_ascii]
        · have := hexDigit_low (Utf8.byte c.toNat)
          simp only [List.map_cons, List.map_nil, latin1_char, Utf8.byte_of_toNat]
          rfl
        · intro d hd
          have := hexDigit_low (Utf8.byte c.toNat)
          simp at hd
          rcases hd with rfl | rfl | rfl
          · decide
          · rw [latin1_char]; exact this.1
          · rw [latin1_char]; exact this.2
      · rw [Utf8.encode_ascii (by simpa using hc)]; rfl
    · rw [if_neg (by simp [hc])]
      have hh := Utf8.encChar_high (c := c) (by omega)
      have hid : ∀ l : Bytes, (∀ b ∈ l, 128 ≤ b.toNat) → escBytes u l = l := by
        intro l hl
        induction l with
        | nil => rfl
        | cons b l ihl =>
          rw [escBytes_cons, if_neg, ihl fun x hx => hl x (by simp [hx])]
          · rfl
          · intro hb
            have h1 := hu b hb
            have h2 := hl b (by simp)
            omega
      rw [hid _ hh]
      simp [Utf8.encode]

theorem decode_escBytes (u : List UInt8) (hu : ∀ b ∈ u, b.toNat < 128) (t : Str) :
    Utf8.decode (escBytes u (Utf8.encode t)) = escText u t := by
  rw [escBytes_encode u hu, Utf8.decode_encode]

/-! ### The URLs -/

/-- How a path is shown in a URL: a percent sign, a semicolon and a question mark are escaped,
every other character stands for itself. -/
def shown (t : Str) : Str :=
  t.flatMap fun c => if c = '%' then s%"%25" else if c = ';' then s%"%3B" else if c = '?' then s%"%3F" else [c]

theorem shown_eq (t : Str) : escText keptBytes t = shown t := by
  unfold escText shown
  congr 1
  funext c
  by_cases hc : c.toNat < 128
  · have key : ∀ n < 128, (if n < 128 ∧ Utf8.byte n ∈ keptBytes then
        ['%', Char.ofNat (Urls.hexDigit (Utf8.byte n / 16)).toNat, Char.ofNat (Urls.hexDigit (Utf8.byte n % 16)).toNat]
        else [Char.ofNat n]) = (if Char.ofNat n = '%' then s%"%25" else if Char.ofNat n = ';' then s%"%3B"
          else if Char.ofNat n = '?' then s%"%3F" else [Char.ofNat n]) := by decide +kernel
    have := key c.toNat hc
    rwa [Utf8.ofNat_toNat] at this
  · rw [if_neg (by simp [hc])]
    rw [if_neg, if_neg, if_neg]
    · rintro rfl; exact hc (by decide)
    · rintro rfl; exact hc (by decide)
    · rintro rfl; exact hc (by decide)

theorem decode_shown (t : Str) : Utf8.decode (escBytes keptBytes (Utf8.encode t)) = shown t := by
  rw [decode_escBytes _ (by decide), shown_eq]

theorem getBytes_dance (t : Str) : getBytes (encodingDance t) = .ok (Utf8.encode t) := by
  unfold getBytes encodingDance; exact Utf8.toLatin1_latin1 _

theorem high_ne {b : UInt8} {d : Nat} (hd : d < 128) (h : 128 ≤ b.toNat) : b ≠ Utf8.byte d := by
  intro hh
  have := congrArg UInt8.toNat hh
  rw [Utf8.byte_toNat (by omega)] at this
  omega

/-- Stripping leading slashes before encoding or after. -/
theorem dropWhile_encode (t : Str) : (Utf8.encode t).dropWhile (· = 47) = Utf8.encode (t.dropWhile (· = '/')) := by
  induction t with
  | nil => rfl
  | cons c t ih =>
    by_cases hc : c = '/'
    · subst hc
      have e : Utf8.encode ('/' :: t) = 47 :: Utf8.encode t := by
        rw [Utf8.encode_cons, Utf8.encChar_ascii (by decide)]; rfl
      rw [e]
      simp only [List.dropWhile, decide_true]
      exact ih
    · rw [show (c :: t).dropWhile (· = '/') = c :: t by simp [List.dropWhile, hc]]
      rw [Utf8.encode_cons]
      by_cases hl : c.toNat < 128
      · rw [Utf8.encChar_ascii hl]
        have : Utf8.byte c.toNat ≠ 47 := by
          intro h
          apply hc
          have := congrArg UInt8.toNat h
          rw [Utf8.byte_toNat (by omega)] at this
          rw [← Utf8.ofNat_toNat c, this]; decide
        simp [List.dropWhile, this]
      · have hh := Utf8.encChar_high (c := c) (by omega)
        cases he : Utf8.encChar c with
        | nil =>
          exfalso
          unfold Utf8.encChar at he
          simp only at he
          repeat' (split at he)
          all_goals simp at he
        | cons x xs =>
          rw [he] at hh
          have : x ≠ 47 := high_ne (d := 47) (by omega) (hh x (by simp))
          simp [List.dropWhile, this]

theorem encode_concat (t : Str) (c : Char) : Utf8.encode (t ++ [c]) = Utf8.encode t ++ Utf8.encChar c := by
  rw [Utf8.encode_append]; simp [Utf8.encode]

theorem encChar_ne_nil (c : Char) : Utf8.encChar c ≠ [] := by
  intro he
  unfold Utf8.encChar at he
  simp only at he
  repeat' (split at he)
  all_goals simp at he

/-- The last byte of a character other than a slash is no slash. -/
theorem encChar_last {c : Char} (hc : c ≠ '/') : ∀ b ∈ Utf8.encChar c, b ≠ 47 := by
  intro b hb
  by_cases hl : c.toNat < 128
  · rw [Utf8.encChar_ascii hl] at hb
    simp at hb
    intro h
    apply hc
    rw [h] at hb
    have := congrArg UInt8.toNat hb
    rw [Utf8.byte_toNat (by omega)] at this
    rw [← Utf8.ofNat_toNat c, ← this]; decide
  · exact high_ne (d := 47) (by omega) (Utf8.encChar_high (c := c) (by omega) b hb)

theorem rstripB_encode (t : Str) : rstripB (Utf8.encode t) = Utf8.encode (rstripP (· = '/') t) := by
  obtain ⟨r, rfl⟩ : ∃ r : Str, t = r.reverse := ⟨t.reverse, by simp⟩
  induction r with
  | nil => rfl
  | cons c r ih =>
    rw [List.reverse_cons, encode_concat]
    by_cases hc : c = '/'
    · subst hc
      have e : Utf8.encChar '/' = [47] := by decide
      have e2 : rstripB (Utf8.encode r.reverse ++ [47]) = rstripB (Utf8.encode r.reverse) := by simp [rstripB]
      rw [e, e2, rstripP_append _ _ _ (by simp), ih]
    · have h1 := encChar_last hc
      rw [rstripP_of_last, encode_concat]
      · obtain ⟨x, xs, hx⟩ : ∃ x xs, (Utf8.encChar c).reverse = x :: xs := by
          cases hr : (Utf8.encChar c).reverse with
          | nil => exact absurd (by simpa using hr) (encChar_ne_nil c)
          | cons x xs => exact ⟨x, xs, rfl⟩
        have hx47 : x ≠ 47 := h1 x (by have : x ∈ (Utf8.encChar c).reverse := by rw [hx]; simp
                                       simpa using this)
        unfold rstripB
        rw [List.reverse_append, hx]
        simp only [List.cons_append, List.dropWhile, hx47, decide_false]
        rw [← List.cons_append, ← hx, ← List.reverse_append, List.reverse_reverse]
      · intro d hd
        simp at hd
        subst hd
        simpa using hc

/-- What a request says about the machine it was sent to: a web scheme, and a host that is not
cut into by the delimiters of a URL, of which `h'` is the form for display. -/
structure Site (idna : Str → Except PyErr Bytes) (lower label : Str → Str) (trusted : Option (List Str))
    (environ : List (Str × Str)) (scheme host h' : Str) : Prop where
  web : Web scheme
  scheme_eq : Dict.get environ s%"wsgi.url_scheme" = some scheme
  host_eq : Wsgi.getHost idna environ trusted = .ok host
  plain : ∀ c ∈ s%"/?#", c ∉ host
  brackets : '[' ∈ host ↔ ']' ∈ host
  shown_eq : netlocIri lower label host = .ok h'
  nonempty : h' ≠ []

/-- The path in the text of a URL. -/
theorem quoted_path (a b : Bytes) :
    Utf8.latin1 (Urls.quote slashSafe a) ++ s%"/" ++ Utf8.latin1 (Urls.quote slashSafe b) =
      Utf8.latin1 (Urls.quote slashSafe (a ++ 47 :: b)) := by
  have e : Urls.quote slashSafe (47 :: b) = 47 :: Urls.quote slashSafe b := by
    rw [Urls.quote_cons]; rfl
  rw [quote_append, e]
  unfold Utf8.latin1
  simp

theorem quoted_no {c : Char} (hc : c ∈ s%"?#") (s : Bytes) : c ∉ Utf8.latin1 (Urls.quote slashSafe s) := by
  have h1 : c.toNat < 256 := by revert c; decide
  have h2 : ¬ (Urls.alwaysSafe (Utf8.byte c.toNat) = true ∨ Utf8.byte c.toNat = 37 ∨ Utf8.byte c.toNat ∈ slashSafe) := by
    clear h1; revert c; decide
  intro h
  rw [mem_latin1 h1] at h
  rcases quote_mem h with h | h | ⟨h, _⟩
  · exact h2 (Or.inl h)
  · exact h2 (Or.inr (Or.inl h))
  · exact h2 (Or.inr (Or.inr h))

theorem decode_path (a b : Str) :
    Utf8.decode (escBytes keptBytes (Utf8.encode a ++ 47 :: Utf8.encode b)) = shown a ++ s%"/" ++ shown b := by
  have e : Utf8.encode a ++ 47 :: Utf8.encode b = Utf8.encode (a ++ s%"/" ++ b) := by
    rw [Utf8.encode_append, Utf8.encode_append]
    simp only [List.append_assoc]; rfl
  rw [e, decode_shown]
  unfold shown
  simp

/-- How the query string is shown in a URL. -/
def shownQuery (q : Str) : Str :=
  safeUnquoteText Urls.queryUnsafe (Utf8.latin1 (Urls.quote querySafe (Utf8.encode q)))

theorem querySafe_no (s : Bytes) : '#' ∉ Utf8.latin1 (Urls.quote querySafe s) := by
  intro h
  rw [mem_latin1 (by decide)] at h
  rcases quote_mem h with h | h | ⟨h, _⟩ <;> revert h <;> decide

theorem quote_nil {safe : List UInt8} {s : Bytes} : Urls.quote safe s = [] ↔ s = [] := by
  cases s with
  | nil => simp [Urls.quote]
  | cons b s => rw [Urls.quote_cons]; split <;> simp

theorem latin1_nil {s : Bytes} : Utf8.latin1 s = [] ↔ s = [] := by simp [Utf8.latin1]

theorem encode_nil {t : Str} : Utf8.encode t = [] ↔ t = [] := by
  constructor
  · intro h
    have := Utf8.decode_encode t
    rw [h] at this
    exact this.symm
  · rintro rfl; rfl

theorem percent_decode_ne_nil {u : List UInt8} {s : Bytes} (h : s ≠ []) : Percent.decode u s ≠ [] := by
  cases s with
  | nil => exact absurd rfl h
  | cons a s =>
    by_cases ha : a = 37
    · subst ha
      match s with
      | [] => simp [Percent.decode]
      | [b] => simp [Percent.decode]
      | b :: c :: r =>
        cases he : Percent.escape b c with
        | none => simp [Percent.decode, he]
        | some x =>
          rw [Urls.decode_esc he]
          split <;> simp
    · rw [Urls.decode_ne ha]; simp

theorem decode_ne_nil {b : Bytes} (h : b ≠ []) : Utf8.decode b ≠ [] := by
  cases b with
  | nil => exact absurd rfl h
  | cons x t => unfold Utf8.decode; rw [Utf8.items_cons]; simp

theorem shownQuery_nil {q : Str} : shownQuery q = [] ↔ q = [] := by
  constructor
  · intro h
    cases hq : decide (q = []) with
    | true => exact of_decide_eq_true hq
    | false =>
      exfalso
      have hq := of_decide_eq_false hq
      unfold shownQuery safeUnquoteText at h
      refine decode_ne_nil ?_ h
      rw [Urls.C39_scan]
      apply percent_decode_ne_nil
      intro h'
      exact hq (encode_nil.1 (quote_nil.1 (latin1_nil.1 (encode_nil.1 h'))))
  · rintro rfl; decide +kernel

/-- **C91, the URLs.**  For a request whose environ carries the texts `root`, `p` and `q`, the
URL of the host, of the application, of the resource and of the request are `scheme://host/`,
then the script root, the path and the query, each as shown to users.  `Site` says what the
environ tells about scheme and host. -/
theorem C91_urls (idna : Str → Except PyErr Bytes) (lower label : Str → Str) (usesNetloc : Str → Bool)
    (trusted : Option (List Str)) (hl : lower s%"https" = s%"https") (environ : List (Str × Str))
    (scheme host h' root p q : Str) (site : Site idna lower label trusted environ scheme host h')
    (h1 : envText environ s%"SCRIPT_NAME" = encodingDance root)
    (h2 : envText environ s%"PATH_INFO" = encodingDance p)
    (h3 : envText environ s%"QUERY_STRING" = encodingDance q)
    (hslash : root = [] ∨ root.head? = some '/') :
    let start := scheme ++ s%"://" ++ h'
    let root' := shown (rstripP (· = '/') root)
    let p' := shown (lstripP (· = '/') p)
    let url := fun part => currentUrl idna lower label usesNetloc trusted part environ
    url .host = .ok (start ++ s%"/") ∧
    url .root = .ok (start ++ root' ++ s%"/") ∧
    url .base = .ok (start ++ root' ++ s%"/" ++ p') ∧
    url .full = .ok (start ++ root' ++ s%"/" ++ p' ++ (if q = [] then [] else '?' :: shownQuery q)) := by
  obtain ⟨hw, hsch, hhost, hplain, hbr, hnet, hne⟩ := site
  intro start root' p' url
  -- the bytes of the three parts
  have g1 : getBytes (envText environ s%"SCRIPT_NAME") = .ok (Utf8.encode root) := by rw [h1, getBytes_dance]
  have g2 : getBytes (envText environ s%"PATH_INFO") = .ok (Utf8.encode p) := by rw [h2, getBytes_dance]
  have g3 : getBytes (envText environ s%"QUERY_STRING") = .ok (Utf8.encode q) := by rw [h3, getBytes_dance]
  have hopen : ∀ part t, currentText part scheme host environ = .ok t → url part = uriToIri lower label usesNetloc t := by
    intro part t ht; simp only [url, currentUrl, hsch, hhost, ht]
  have hroot : currentText .root scheme host environ = .ok (scheme ++ s%"://" ++ host ++
      Utf8.latin1 (Urls.quote slashSafe (rstripB (Utf8.encode root))) ++ s%"/") := by
    simp only [currentText, g1, rstrip_quote]
    rw [if_neg (by decide), if_pos trivial]
  have hbase : currentText .base scheme host environ = .ok (scheme ++ s%"://" ++ host ++
      Utf8.latin1 (Urls.quote slashSafe (rstripB (Utf8.encode root))) ++ s%"/" ++
      Utf8.latin1 (Urls.quote slashSafe (Utf8.encode (p.dropWhile (· = '/'))))) := by
    simp only [currentText, g1, g2, rstrip_quote, dropWhile_encode]
    rw [if_neg (by decide), if_neg (by decide), if_pos trivial]
  have hfull : currentText .full scheme host environ = .ok (
      if Utf8.latin1 (Urls.quote querySafe (Utf8.encode q)) ≠ [] then scheme ++ s%"://" ++ host ++
      Utf8.latin1 (Urls.quote slashSafe (rstripB (Utf8.encode root))) ++ s%"/" ++
      Utf8.latin1 (Urls.quote slashSafe (Utf8.encode (p.dropWhile (· = '/')))) ++
        '?' :: Utf8.latin1 (Urls.quote querySafe (Utf8.encode q)) else scheme ++ s%"://" ++ host ++
      Utf8.latin1 (Urls.quote slashSafe (rstripB (Utf8.encode root))) ++ s%"/" ++
      Utf8.latin1 (Urls.quote slashSafe (Utf8.encode (p.dropWhile (· = '/'))))) := by
    simp only [currentText, g1, g2, getQueryString, g3, rstrip_quote, dropWhile_encode]
    rw [if_neg (by decide), if_neg (by decide), if_neg (by decide)]
  -- any path made of two stripped parts
  have hiri : ∀ (b : Str) (oq : Option Str), (∀ x, oq = some x → '#' ∉ x) →
      uriToIri lower label usesNetloc (scheme ++ s%"://" ++ (host ++
        (Utf8.latin1 (Urls.quote slashSafe (rstripB (Utf8.encode root))) ++ s%"/" ++
          Utf8.latin1 (Urls.quote slashSafe (Utf8.encode b))) ++ (oq.map ('?' :: ·)).getD [])) =
      .ok (scheme ++ s%"://" ++ h' ++ (root' ++ s%"/" ++ shown b) ++
        (if safeUnquoteText Urls.queryUnsafe (oq.getD []) = [] then []
         else '?' :: safeUnquoteText Urls.queryUnsafe (oq.getD []))) := by
    intro b oq hoq
    rw [quoted_path]
    have hdec : safeUnquoteText Urls.pathUnsafe (Utf8.latin1 (Urls.quote slashSafe
        (rstripB (Utf8.encode root) ++ 47 :: Utf8.encode b))) = root' ++ s%"/" ++ shown b := by
      rw [safeUnquote_path, rstripB_encode, decode_path]
    have hstart : rstripP (· = '/') root = [] ∨ (rstripP (· = '/') root).head? = some '/' := by
      obtain ⟨t, ht⟩ := rstripP_prefix (· = '/') root
      cases hr : rstripP (· = '/') root with
      | nil => exact Or.inl rfl
      | cons c r =>
        rw [hr] at ht
        right
        rcases hslash with h | h
        · rw [h] at ht; simp at ht
        · rw [← ht] at h; simpa using h
    have hhead : ∀ b : Str, (Utf8.latin1 (Urls.quote slashSafe (rstripB (Utf8.encode root) ++ 47 :: Utf8.encode b))).head? = some '/' := by
      intro b
      rw [rstripB_encode]
      rcases hstart with h | h
      · rw [h]; rfl
      · cases hr : rstripP (· = '/') root with
        | nil => rw [hr] at h; simp at h
        | cons c r =>
          rw [hr] at h
          simp at h
          subst h
          have : Utf8.encode ('/' :: r) = 47 :: Utf8.encode r := by
            rw [Utf8.encode_cons, Utf8.encChar_ascii (by decide)]; rfl
          rw [this]
          rfl
    have hhead2 : (root' ++ s%"/" ++ shown b).head? = some '/' := by
      rcases hstart with h | h
      · simp only [root', h]; rfl
      · cases hr : rstripP (· = '/') root with
        | nil => rw [hr] at h; simp at h
        | cons c r =>
          rw [hr] at h
          simp at h
          subst h
          simp only [root', hr]
          simp [shown]
    rw [uriToIri_web lower label usesNetloc hl hw oq hplain hbr hnet hne (hhead b)
      (quoted_no (by decide) _) (quoted_no (by decide) _) hoq (by rw [hdec]; exact hhead2), hdec]
  have e2 : safeUnquoteText Urls.queryUnsafe [] = [] := by decide +kernel
  refine ⟨?_, ?_, ?_, ?_⟩
  · rw [hopen .host (scheme ++ s%"://" ++ host ++ s%"/") (by simp only [currentText, if_true])]
    have := uriToIri_web lower label usesNetloc hl hw (p := s%"/") none hplain hbr hnet hne (by decide)
      (by decide) (by decide) (by simp) (by decide +kernel)
    have e1 : safeUnquoteText Urls.pathUnsafe s%"/" = s%"/" := by decide +kernel
    simp only [Option.map_none, Option.getD_none, List.append_nil, e1, e2, if_true] at this
    simp only [List.append_assoc] at this ⊢
    rw [this]
    simp [start]
  · rw [hopen _ _ hroot]
    have := hiri [] none (by simp)
    have e3 : shown [] = [] := rfl
    have e4 : Utf8.latin1 (Urls.quote slashSafe (Utf8.encode [])) = [] := rfl
    simp only [Option.map_none, Option.getD_none, List.append_nil, e2, e3, e4, if_true] at this
    simp only [List.append_assoc] at this ⊢
    rw [this]
    simp [start]
  · rw [hopen _ _ hbase]
    have := hiri (lstripP (· = '/') p) none (by simp)
    simp only [Option.map_none, Option.getD_none, List.append_nil, e2, if_true] at this
    simp only [List.append_assoc, lstripP] at this ⊢
    rw [this]
    simp [start, p', lstripP]
  · rw [hopen _ _ hfull]
    by_cases hq : q = []
    · subst hq
      have := hiri (lstripP (· = '/') p) none (by simp)
      simp only [Option.map_none, Option.getD_none, List.append_nil, e2, if_true] at this
      rw [if_neg (by simp [Utf8.encode, Urls.quote, Utf8.latin1]), if_pos rfl]
      simp only [List.append_assoc, lstripP] at this ⊢
      rw [this]
      simp [start, p', lstripP]
    · have hqq : Utf8.latin1 (Urls.quote querySafe (Utf8.encode q)) ≠ [] := by
        intro h; exact hq (encode_nil.1 (quote_nil.1 (latin1_nil.1 h)))
      have := hiri (lstripP (· = '/') p) (some (Utf8.latin1 (Urls.quote querySafe (Utf8.encode q))))
        (by intro x hx; cases hx; exact querySafe_no _)
      rw [if_pos hqq, if_neg hq]
      have hsq : safeUnquoteText Urls.queryUnsafe (Utf8.latin1 (Urls.quote querySafe (Utf8.encode q))) = shownQuery q := rfl
      simp only [Option.map_some, Option.getD_some, hsq] at this
      rw [if_neg (fun h => hq (shownQuery_nil.1 h))] at this
      simp only [List.append_assoc, lstripP] at this ⊢
      rw [this]
      simp [start, p', lstripP]

/-- **C91, the parts are nested.**  The URL of the host is a prefix of that of the application
up to its slash, that of the application a prefix of that of the resource, and that a prefix of
the URL of the request. -/
theorem C91_nested (idna : Str → Except PyErr Bytes) (lower label : Str → Str) (usesNetloc : Str → Bool)
    (trusted : Option (List Str)) (hl : lower s%"https" = s%"https") (environ : List (Str × Str))
    (scheme host h' root p q : Str) (site : Site idna lower label trusted environ scheme host h')
    (h1 : envText environ s%"SCRIPT_NAME" = encodingDance root)
    (h2 : envText environ s%"PATH_INFO" = encodingDance p)
    (h3 : envText environ s%"QUERY_STRING" = encodingDance q)
    (hslash : root = [] ∨ root.head? = some '/') :
    ∃ hostUrl rootUrl baseUrl url,
      currentUrl idna lower label usesNetloc trusted .host environ = .ok hostUrl ∧
      currentUrl idna lower label usesNetloc trusted .root environ = .ok rootUrl ∧
      currentUrl idna lower label usesNetloc trusted .base environ = .ok baseUrl ∧
      currentUrl idna lower label usesNetloc trusted .full environ = .ok url ∧
      hostUrl <+: rootUrl ∧ rootUrl <+: baseUrl ∧ baseUrl <+: url ∧ rootUrl.getLast? = some '/' := by
  obtain ⟨u1, u2, u3, u4⟩ := C91_urls idna lower label usesNetloc trusted hl environ scheme host h' root p q site h1 h2 h3 hslash
  refine ⟨_, _, _, _, u1, u2, u3, u4, ?_, ⟨_, rfl⟩, ⟨_, rfl⟩, List.getLast?_concat⟩
  have : rstripP (· = '/') root = [] ∨ ∃ r, rstripP (· = '/') root = '/' :: r := by
    obtain ⟨t, ht⟩ := rstripP_prefix (· = '/') root
    cases hr : rstripP (· = '/') root with
    | nil => exact Or.inl rfl
    | cons c r =>
      rw [hr] at ht
      right
      rcases hslash with h | h
      · rw [h] at ht; simp at ht
      · rw [← ht] at h; simp at h; exact ⟨r, by rw [h]⟩
  rcases this with h | ⟨r, h⟩
  · rw [h]; exact ⟨[], by simp [shown]⟩
  · rw [h]
    refine ⟨shown r ++ s%"/", ?_⟩
    simp [shown]

/-! ### Taking a URL apart again -/

theorem unescape (u : List UInt8) (h37 : (37 : UInt8) ∈ u) (s : Bytes) : Urls.safeUnquote [] (escBytes u s) = s := by
  rw [Urls.C39_scan]
  induction s with
  | nil => rfl
  | cons b s ih =>
    rw [escBytes_cons]
    split
    · simp only [List.cons_append, List.nil_append]
      rw [Urls.decode_esc (Urls.hexDigit_spec b).1, ih]; simp
    · rename_i hb
      have : b ≠ 37 := fun h => hb (h ▸ h37)
      rw [List.singleton_append, Urls.decode_ne this, ih]

theorem unquoteGo_append (acc : Bytes) (a rest : Str) (h : ∀ c ∈ a, c.toNat < 128) :
    unquoteGo acc (a ++ rest) = unquoteGo (acc ++ Utf8.encode a) rest := by
  induction a generalizing acc with
  | nil => simp [Utf8.encode]
  | cons c a ih =>
    rw [List.cons_append, unquoteGo, if_pos (h c (by simp)), ih _ (fun d hd => h d (by simp [hd])), Utf8.encode_cons,
      Utf8.encChar_ascii (h c (by simp))]
    simp

theorem piece_low (u : List UInt8) (c : Char) (hc : c.toNat < 128) : ∀ d ∈ escText u [c], d.toNat < 128 := by
  intro d hd
  rw [escText_cons] at hd
  have := hexDigit_low (Utf8.byte c.toNat)
  split at hd
  · simp [escText] at hd
    rcases hd with rfl | rfl | rfl
    · decide
    · rw [latin1_char]; exact this.1
    · rw [latin1_char]; exact this.2
  · simp [escText] at hd; subst hd; exact hc

theorem escText_append (u : List UInt8) (a b : Str) : escText u (a ++ b) = escText u a ++ escText u b := by
  simp [escText]

/-- Decoding the escapes of a text gives the text. -/
theorem unquote_escText (u : List UInt8) (h37 : (37 : UInt8) ∈ u) (hu : ∀ b ∈ u, b.toNat < 128) (t : Str) :
    unquote (escText u t) = t := by
  have key : ∀ (t a : Str), unquoteGo (Utf8.encode (escText u a)) (escText u t) = a ++ t := by
    intro t
    induction t with
    | nil =>
      intro a
      simp only [escText, List.flatMap_nil, unquoteGo]
      have := escBytes_encode u hu a
      unfold escText at this
      rw [← this, unescape u h37, Utf8.decode_encode]; simp
    | cons c t ih =>
      intro a
      have e : escText u (c :: t) = escText u [c] ++ escText u t := by
        rw [← escText_append]; rfl
      by_cases hc : c.toNat < 128
      · rw [e, unquoteGo_append _ _ _ (piece_low u c hc), ← Utf8.encode_append, ← escText_append, ih]
        simp
      · have e2 : escText u [c] = [c] := by rw [escText_cons, if_neg (by simp [hc])]; rfl
        rw [e, e2, List.singleton_append, unquoteGo, if_neg hc]
        have e3 := ih []
        simp only [escText, List.flatMap_nil, Utf8.encode, List.nil_append] at e3
        unfold escText
        rw [e3]
        have := escBytes_encode u hu a
        unfold escText at this
        rw [← this, unescape u h37, Utf8.decode_encode]
  have := key t []
  simp only [List.nil_append] at this
  exact this

theorem escText_no {u : List UInt8} {c : Char} (hc : c.toNat < 128) (hu : Utf8.byte c.toNat ∈ u)
    (hs : Urls.alwaysSafe (Utf8.byte c.toNat) = false) (h37 : c ≠ '%') (t : Str) : c ∉ escText u t := by
  intro h
  unfold escText at h
  simp only [List.mem_flatMap] at h
  obtain ⟨d, _, hd⟩ := h
  split at hd
  · have hex := Urls.hexDigit_spec (Utf8.byte d.toNat)
    have h1 : ∀ x : UInt8, Urls.alwaysSafe x = true → c ≠ Char.ofNat x.toNat := by
      intro x hx hcx
      have := congrArg Char.toNat hcx
      rw [latin1_char] at this
      rw [this, Utf8.byte_of_toNat, hx] at hs
      simp at hs
    simp only [List.mem_cons, List.not_mem_nil, or_false] at hd
    rcases hd with hd | hd | hd
    · exact h37 hd
    · exact h1 _ hex.2.1 hd
    · exact h1 _ hex.2.2 hd
  · rename_i hn
    simp at hd
    subst hd
    exact hn ⟨hc, hu⟩

theorem mem_escText {u : List UInt8} {c : Char} (h37 : c ≠ '%') (hs : c.toNat < 128 → Urls.alwaysSafe (Utf8.byte c.toNat) = false)
    {t : Str} (h : c ∈ escText u t) : c ∈ t := by
  unfold escText at h
  simp only [List.mem_flatMap] at h
  obtain ⟨d, hdt, hd⟩ := h
  split at hd
  · have hex := Urls.hexDigit_spec (Utf8.byte d.toNat)
    have h1 : ∀ x : UInt8, Urls.alwaysSafe x = true → c ≠ Char.ofNat x.toNat := by
      intro x hx hcx
      have := congrArg Char.toNat hcx
      rw [latin1_char] at this
      have hs' := hs (by rw [this]; exact alwaysSafe_low hx)
      rw [this, Utf8.byte_of_toNat, hx] at hs'
      simp at hs'
    simp only [List.mem_cons, List.not_mem_nil, or_false] at hd
    rcases hd with hd | hd | hd
    · exact absurd hd h37
    · exact absurd hd (h1 _ hex.2.1)
    · exact absurd hd (h1 _ hex.2.2)
  · simp at hd
    subst hd
    exact hdt

/-- A field of a query as shown in a URL. -/
def shownField (t : Str) : Str := (escText Urls.queryUnsafe t).map fun c => if c = ' ' then '+' else c

theorem shownField_no {c : Char} (hc : c ∈ s%"&;=#") (t : Str) : c ∉ shownField t := by
  have h1 : c ∉ escText Urls.queryUnsafe t :=
    escText_no (by revert c; decide) (by revert c; decide) (by revert c; decide) (by revert c; decide) t
  intro h
  unfold shownField at h
  simp only [List.mem_map] at h
  obtain ⟨d, hd, he⟩ := h
  split at he
  · subst he; revert hc; decide
  · subst he; exact h1 hd

theorem unquotePlus_shownField (t : Str) : unquotePlus (shownField t) = t := by
  have h1 : '+' ∉ escText Urls.queryUnsafe t := escText_no (by decide) (by decide) (by decide) (by decide) t
  have : (shownField t).map (fun c => if c = '+' then ' ' else c) = escText Urls.queryUnsafe t := by
    unfold shownField
    rw [List.map_map]
    apply map_eq_self.2
    intro c hc
    simp only [Function.comp_apply]
    by_cases h : c = ' '
    · simp [h]
    · rw [if_neg h, if_neg]
      intro h'; exact h1 (h' ▸ hc)
  unfold unquotePlus
  rw [this, unquote_escText _ (by decide) (by decide)]

/-- Percent-decoding does not look past a byte that is no part of an escape. -/
theorem decode_delim (u : List UInt8) {d : UInt8} (hd : d ≠ 37) (hx : Percent.nibble d = none) (a b : Bytes) :
    Percent.decode u (a ++ d :: b) = Percent.decode u a ++ d :: Percent.decode u b := by
  induction a using Urls.scan_induction with
  | nil => rw [List.nil_append, Urls.decode_ne hd]; rfl
  | plain x s hx' ih => rw [List.cons_append, Urls.decode_ne hx', Urls.decode_ne hx', ih]; rfl
  | esc p q x s he ih =>
    simp only [List.cons_append]
    rw [Urls.decode_esc he, Urls.decode_esc he, ih]
    split <;> rfl
  | bad s hb ih =>
    simp only [List.cons_append]
    rw [Urls.decode_bad hb, Urls.decode_bad, ih]
    · rfl
    · intro p q r x hpq he
      match s, hpq with
      | [], hpq =>
        simp at hpq
        rw [← hpq.1] at he
        exact (Urls.escape_nibbles he).1 hx
      | [y], hpq =>
        simp at hpq
        rw [← hpq.2.1] at he
        exact (Urls.escape_nibbles he).2 hx
      | y :: z :: r', hpq =>
        simp at hpq
        refine hb p q r' x ?_ he
        rw [← hpq.1, ← hpq.2.1]

/-- Bytes with spaces as plus signs. -/
def plus (s : Bytes) : Bytes := s.map fun b => if b = 32 then 43 else b

theorem plus_append (a b : Bytes) : plus (a ++ b) = plus a ++ plus b := by simp [plus]

theorem decode_quoted (s : Bytes) :
    Percent.decode Urls.queryUnsafe (plus (Urls.quote [32] s)) = plus (escBytes Urls.queryUnsafe s) := by
  induction s with
  | nil => rfl
  | cons b s ih =>
    rw [Urls.quote_cons, escBytes_cons, plus_append, plus_append]
    have hex : ∀ x : UInt8, Urls.alwaysSafe x = true → (if x = 32 then (43 : UInt8) else x) = x := by
      intro x hx; rw [if_neg]; rintro rfl; revert hx; decide
    have h1 := hex _ (Urls.hexDigit_spec b).2.1
    have h2 := hex _ (Urls.hexDigit_spec b).2.2
    by_cases hb : Urls.alwaysSafe b = true ∨ b ∈ ([32] : List UInt8)
    · have hbu : b ∉ Urls.queryUnsafe := by
        have := Urls.forall_byte (fun b => !(Urls.alwaysSafe b || decide (b ∈ ([32] : List UInt8))) || !decide (b ∈ Urls.queryUnsafe))
          (by decide +kernel) b
        simp only [Bool.or_eq_true, Bool.not_eq_true', Bool.or_eq_false_iff, decide_eq_false_iff_not] at this
        rcases this with h | h
        · rcases hb with hb | hb
          · rw [hb] at h; simp at h
          · exact absurd hb h.2
        · exact h
      rw [if_pos hb, if_neg hbu]
      simp only [plus, List.map_cons, List.map_nil, List.singleton_append]
      rw [Urls.decode_ne, ← plus, ih]
      · rfl
      · split
        · decide
        · rintro rfl
          rcases hb with hb | hb <;> revert hb <;> decide
    · rw [if_neg hb]
      have hb32 : b ≠ 32 := fun h => hb (Or.inr (by simp [h]))
      have e : plus [37, Urls.hexDigit (b / 16), Urls.hexDigit (b % 16)] = [37, Urls.hexDigit (b / 16), Urls.hexDigit (b % 16)] := by
        simp only [plus, List.map_cons, List.map_nil, h1, h2]; rfl
      rw [e]
      simp only [List.cons_append, List.nil_append]
      rw [Urls.decode_esc (Urls.hexDigit_spec b).1, ih]
      split
      · rw [e]; rfl
      · simp [plus, hb32]

theorem plus_encode (t : Str) : plus (Utf8.encode t) = Utf8.encode (t.map fun c => if c = ' ' then '+' else c) := by
  induction t with
  | nil => rfl
  | cons c t ih =>
    rw [Utf8.encode_cons, plus_append, ih, List.map_cons, Utf8.encode_cons]
    congr 1
    by_cases hc : c = ' '
    · subst hc; decide
    · rw [if_neg hc]
      unfold plus
      apply map_eq_self.2
      intro b hb
      rw [if_neg]
      rintro rfl
      by_cases hl : c.toNat < 128
      · rw [Utf8.encChar_ascii hl] at hb
        simp at hb
        apply hc
        have := congrArg UInt8.toNat hb
        rw [Utf8.byte_toNat (by omega)] at this
        rw [← Utf8.ofNat_toNat c, ← this]; decide
      · exact high_ne (d := 32) (by omega) (Utf8.encChar_high (c := c) (by omega) _ hb) rfl

theorem encode_quotePlus (t : Str) : Utf8.encode (quotePlus t) = plus (Urls.quote [32] (Utf8.encode t)) := by
  unfold quotePlus
  rw [encode_latin1]
  · rfl
  · intro b hb
    simp only [List.mem_map] at hb
    obtain ⟨x, hx, rfl⟩ := hb
    split
    · decide
    · exact quote_low [32] (by decide) _ x hx

theorem decode_field (t : Str) :
    Percent.decode Urls.queryUnsafe (Utf8.encode (quotePlus t)) = Utf8.encode (shownField t) := by
  rw [encode_quotePlus, decode_quoted, escBytes_encode _ (by decide), plus_encode]; rfl

/-- The URL encoding of pairs, as shown in a URL. -/
def shownPairs (pairs : List (Str × Str)) : Str :=
  join ['&'] (pairs.map fun p => shownField p.1 ++ '=' :: shownField p.2)

theorem encode_delim (a b : Str) (d : Char) (hd : d.toNat < 128) :
    Utf8.encode (a ++ d :: b) = Utf8.encode a ++ Utf8.byte d.toNat :: Utf8.encode b := by
  rw [Utf8.encode_append, Utf8.encode_cons, Utf8.encChar_ascii hd]; rfl

theorem join_cons2 (sep x y : Str) (l : List Str) : join sep (x :: y :: l) = x ++ sep ++ join sep (y :: l) := rfl

theorem decode_urlencode (pairs : List (Str × Str)) :
    Percent.decode Urls.queryUnsafe (Utf8.encode (urlencode pairs)) = Utf8.encode (shownPairs pairs) := by
  have hpair : ∀ p : Str × Str, Percent.decode Urls.queryUnsafe (Utf8.encode (quotePlus p.1 ++ '=' :: quotePlus p.2)) =
      Utf8.encode (shownField p.1 ++ '=' :: shownField p.2) := by
    intro p
    rw [encode_delim _ _ _ (by decide), encode_delim _ _ _ (by decide), decode_delim _ (by decide) (by decide),
      decode_field, decode_field]
  unfold urlencode shownPairs
  induction pairs with
  | nil => rfl
  | cons p ps ih =>
    cases ps with
    | nil => simpa [join] using hpair p
    | cons p' ps =>
      rw [List.map_cons, List.map_cons, join_cons2, List.map_cons, List.map_cons, join_cons2]
      have assoc : ∀ x y : Str, x ++ ['&'] ++ y = x ++ '&' :: y := by intro x y; simp
      rw [assoc, assoc, encode_delim _ _ '&' (by decide), encode_delim _ _ '&' (by decide), decode_delim _ (by decide) (by decide),
        hpair]
      simp only [List.map_cons] at ih
      rw [ih]

theorem quote_urlencode (pairs : List (Str × Str)) :
    Urls.quote querySafe (Utf8.encode (urlencode pairs)) = Utf8.encode (urlencode pairs) := by
  have hid : ∀ t : Bytes, (∀ b ∈ t, Urls.alwaysSafe b = true ∨ b ∈ querySafe) → Urls.quote querySafe t = t := by
    intro t
    induction t with
    | nil => simp [Urls.quote]
    | cons b t ih =>
      intro h
      rw [Urls.quote_cons, if_pos (h b (by simp)), ih fun c hc => h c (by simp [hc])]
      rfl
  apply hid
  rw [Utf8.encode_ascii (fun c hc => (urlencode_mem hc).1)]
  intro b hb
  simp only [List.mem_map] at hb
  obtain ⟨c, hc, rfl⟩ := hb
  rcases (urlencode_mem hc).2 with h | h
  · exact Or.inl h
  · right
    clear hc
    revert c
    decide

theorem shownQuery_urlencode (pairs : List (Str × Str)) : shownQuery (urlencode pairs) = shownPairs pairs := by
  unfold shownQuery safeUnquoteText
  have hlow : ∀ b ∈ Utf8.encode (urlencode pairs), b.toNat < 128 := by
    rw [Utf8.encode_ascii (fun c hc => (urlencode_mem hc).1)]
    intro b hb
    simp only [List.mem_map] at hb
    obtain ⟨c, hc, rfl⟩ := hb
    have := (urlencode_mem hc).1
    rw [Utf8.byte_toNat (by omega)]; exact this
  rw [quote_urlencode, encode_latin1 hlow, Urls.C39_scan, decode_urlencode, Utf8.decode_encode]

theorem shown_append (a b : Str) : shown (a ++ b) = shown a ++ shown b := by simp [shown]

/-- **C91, taking the URL apart.**  For a request with the texts `root` and `p` and the query
string of `pairs`, the URL of the request splits into the scheme, the host, a path that decodes
to script root and path, and a query that gives the same parameters as the request itself,
without a fragment.  Missing from the full statement: texts with a `#`, for which it is
false (`C91_read_back_false`). -/
theorem C91_read_back_partial (idna : Str → Except PyErr Bytes) (lower label : Str → Str) (usesNetloc : Str → Bool)
    (trusted : Option (List Str)) (hl : lower s%"https" = s%"https") (environ : List (Str × Str))
    (scheme host h' root p : Str) (pairs : List (Str × Str)) (site : Site idna lower label trusted environ scheme host h')
    (hplain : ∀ c ∈ s%"/?#", c ∉ h') (hbr : '[' ∈ h' ↔ ']' ∈ h')
    (h1 : envText environ s%"SCRIPT_NAME" = encodingDance root)
    (h2 : envText environ s%"PATH_INFO" = encodingDance p)
    (h3 : envText environ s%"QUERY_STRING" = urlencode pairs)
    (hslash : root = [] ∨ root.head? = some '/') (hr : '#' ∉ root) (hp : '#' ∉ p) (semi : Bool) :
    ∃ url parts root' p' args,
      currentUrl idna lower label usesNetloc trusted .full environ = .ok url ∧
      urlsplit lower url = .ok parts ∧
      scriptRoot environ = .ok root' ∧ path environ = .ok p' ∧ argPairs semi environ = .ok args ∧
      parts.scheme = scheme ∧ parts.netloc = h' ∧ parts.fragment = [] ∧
      unquote parts.path = root' ++ p' ∧ parseQsl semi parts.query = args := by
  have hdance : encodingDance (urlencode pairs) = urlencode pairs := by
    unfold encodingDance
    rw [Utf8.encode_ascii (fun c hc => (urlencode_mem hc).1)]
    unfold Utf8.latin1
    rw [List.map_map]
    apply map_eq_self.2
    intro c hc
    have := (urlencode_mem hc).1
    simp only [Function.comp_apply]
    rw [Utf8.byte_toNat (by omega), Utf8.ofNat_toNat]
  have hu := (C91_urls idna lower label usesNetloc trusted hl environ scheme host h' root p (urlencode pairs) site h1 h2
    (by rw [h3, hdance]) hslash).2.2.2
  rw [shownQuery_urlencode] at hu
  have hroot : scriptRoot environ = .ok (rstripP (· = '/') root) := by
    unfold scriptRoot; rw [h1, (C88_round_trip root).1]
  have hpath : path environ = .ok ('/' :: lstripP (· = '/') p) := by
    unfold path; rw [h2, (C88_round_trip p).1]
  have hargs : argPairs semi environ = .ok (pairs.filter fun p => p.2 ≠ []) := by
    unfold argPairs
    rw [h3, dance_ascii (fun c hc => (urlencode_mem hc).1), ← parseQsl_urlencode semi]
  have hno : ∀ c ∈ s%"?#", ∀ t : Str, '#' ∉ t → c ∉ shown t := by
    intro c hc t ht
    rw [← shown_eq]
    rcases (by revert c; decide : c = '?' ∨ c = '#') with rfl | rfl
    · exact escText_no (by decide) (by decide) (by decide) (by decide) t
    · intro h; exact ht (mem_escText (by decide) (fun _ => by decide) h)
  have hr' : '#' ∉ rstripP (· = '/') root := fun h => hr (rstripP_mem _ _ _ h)
  have hp' : '#' ∉ lstripP (· = '/') p := fun h => hp (lstripP_mem _ _ _ h)
  have hpno : ∀ c ∈ s%"?#", c ∉ shown (rstripP (· = '/') root) ++ s%"/" ++ shown (lstripP (· = '/') p) := by
    intro c hc
    simp only [List.mem_append, not_or]
    refine ⟨⟨hno c hc _ hr', ?_⟩, hno c hc _ hp'⟩
    revert c; decide
  have hhead : (shown (rstripP (· = '/') root) ++ s%"/" ++ shown (lstripP (· = '/') p)).head? = some '/' := by
    obtain ⟨t, ht⟩ := rstripP_prefix (· = '/') root
    cases hr : rstripP (· = '/') root with
    | nil => rfl
    | cons c r =>
      rw [hr] at ht
      rcases hslash with h | h
      · rw [h] at ht; simp at ht
      · rw [← ht] at h; simp at h; subst h; simp [shown]
  have hq : ∀ x, (if urlencode pairs = [] then none else some (shownPairs pairs)) = some x → '#' ∉ x := by
    intro x hx
    split at hx
    · simp at hx
    · cases hx
      intro h
      rcases join_mem h with h | ⟨f, hf, h⟩
      · revert h; decide
      · simp only [List.mem_map] at hf
        obtain ⟨pr, _, rfl⟩ := hf
        simp only [List.mem_append, List.mem_cons] at h
        rcases h with h | h | h
        · exact shownField_no (by decide) _ h
        · revert h; decide
        · exact shownField_no (by decide) _ h
  have hsplit := splitRest_parts scheme h' (shown (rstripP (· = '/') root) ++ s%"/" ++ shown (lstripP (· = '/') p))
    (if urlencode pairs = [] then none else some (shownPairs pairs)) none hplain hbr hhead (hpno _ (by decide))
    (hpno _ (by decide)) hq
  refine ⟨_, ⟨scheme, h', shown (rstripP (· = '/') root) ++ s%"/" ++ shown (lstripP (· = '/') p),
      (if urlencode pairs = [] then none else some (shownPairs pairs)).getD [], []⟩, _, _, _, hu, ?_, hroot, hpath, hargs, ?_⟩
  · refine Eq.trans ?_ (hsplit.trans (by simp))
    rw [← urlsplit_web lower hl site.web]
    congr 1
    by_cases hne : urlencode pairs = []
    · simp [hne]
    · simp [hne]
  · refine ⟨rfl, rfl, rfl, ?_, ?_⟩
    · simp only
      have e : shown (rstripP (· = '/') root) ++ s%"/" ++ shown (lstripP (· = '/') p) =
          escText keptBytes (rstripP (· = '/') root ++ '/' :: lstripP (· = '/') p) := by
        rw [shown_eq, shown_append]
        simp [shown]
      rw [e, unquote_escText _ (by decide) (by decide)]
    · simp only
      have hpp : parseQsl semi (shownPairs pairs) = pairs.filter fun p => p.2 ≠ [] :=
        parseQsl_enc shownField (fun s c hc => shownField_no (by clear s; revert c; decide) s) unquotePlus_shownField rfl semi pairs
      by_cases hne : urlencode pairs = []
      · rw [if_pos hne]
        have := parseQsl_urlencode semi pairs
        rw [hne] at this
        exact this
      · rw [if_neg hne]; exact hpp

/-- The address of the example request, with lower-case ASCII letters and no names to decode. -/
example : Site (fun _ => .error .unicodeError) asciiLower id none demoEnv s%"http" s%"Example.org:8080"
    s%"example.org:8080" where
  web := Or.inl rfl
  scheme_eq := by decide +kernel
  host_eq := by decide +kernel
  plain := by decide
  brackets := by decide
  shown_eq := by decide +kernel
  nonempty := by decide

example : currentUrl (fun _ => .error .unicodeError) asciiLower id (fun _ => false) none .full demoEnv =
    .ok s%"http://example.org:8080/äpp/p%3Fx%3B€?a=1" := by decide +kernel

/-- The full statement of `C91_read_back_partial` is false with a `#` in the path: it ends up in
the URL as it is and starts a fragment. -/
theorem C91_read_back_false : ¬ ∀ (environ : List (Str × Str)) (p : Str),
    Dict.get environ s%"wsgi.url_scheme" = some s%"http" → Dict.get environ s%"HTTP_HOST" = some s%"h" →
    envText environ s%"PATH_INFO" = encodingDance p →
    ∃ url parts p', currentUrl (fun _ => .error .unicodeError) asciiLower id (fun _ => false) none .full environ = .ok url ∧
      urlsplit asciiLower url = .ok parts ∧ path environ = .ok p' ∧ unquote parts.path = p' := by
  intro h
  have := h [(s%"wsgi.url_scheme", s%"http"), (s%"HTTP_HOST", s%"h"), (s%"PATH_INFO", s%"/a#b")] s%"/a#b"
    (by decide +kernel) (by decide +kernel) (by decide +kernel)
  obtain ⟨url, parts, p', h1, h2, h3, h4⟩ := this
  rw [show currentUrl (fun _ => .error .unicodeError) asciiLower id (fun _ => false) none .full
    [(s%"wsgi.url_scheme", s%"http"), (s%"HTTP_HOST", s%"h"), (s%"PATH_INFO", s%"/a#b")] = .ok s%"http://h/a#b" by
      decide +kernel] at h1
  cases h1
  rw [show urlsplit asciiLower s%"http://h/a#b" = .ok ⟨s%"http", s%"h", s%"/a", [], s%"b"⟩ by decide +kernel] at h2
  cases h2
  rw [show path [(s%"wsgi.url_scheme", s%"http"), (s%"HTTP_HOST", s%"h"), (s%"PATH_INFO", s%"/a#b")] = .ok s%"/a#b" by
    decide +kernel] at h3
  cases h3
  revert h4
  decide +kernel

/-! ### C92: who sent the request, and how -/

theorem mapStrip_tail (l : List Str) (h : ∀ a ∈ l, strip a = a) : ((l.map (' ' :: ·)).map strip) = l := by
  rw [List.map_map]
  apply map_eq_self.2
  intro a ha
  simp only [Function.comp_apply]
  have : strip (' ' :: a) = strip a := by
    unfold strip stripP lstripP
    rw [List.dropWhile_cons_of_pos (by decide)]
  rw [this, h a ha]

/-- **C92, the route of a request.**  Addresses that proxies joined with a comma and a space come
back in order; without that header the route is the address of the peer, if there is one. -/
theorem C92_route (environ : List (Str × Str)) :
    (∀ addrs : List Str, addrs ≠ [] → (∀ a ∈ addrs, ',' ∉ a ∧ strip a = a) →
      Dict.get environ s%"HTTP_X_FORWARDED_FOR" = some (join s%", " addrs) → accessRoute environ = addrs) ∧
    (∀ a, Dict.get environ s%"HTTP_X_FORWARDED_FOR" = none → Dict.get environ s%"REMOTE_ADDR" = some a →
      accessRoute environ = [a]) ∧
    (Dict.get environ s%"HTTP_X_FORWARDED_FOR" = none → Dict.get environ s%"REMOTE_ADDR" = none →
      accessRoute environ = []) := by
  refine ⟨?_, ?_, ?_⟩
  · intro addrs hne h hg
    unfold accessRoute
    rw [hg]
    simp only
    cases addrs with
    | nil => exact absurd rfl hne
    | cons a l =>
      have e : ∀ (a : Str) (l : List Str), join s%", " (a :: l) = join [','] (a :: l.map (' ' :: ·)) := by
        intro a l
        induction l generalizing a with
        | nil => rfl
        | cons b l ih =>
          rw [List.map_cons, join_cons2, join_cons2, ih]
          have aux : ∀ (b : Str) (l : List Str), join [','] ((' ' :: b) :: l) = ' ' :: join [','] (b :: l) := by
            intro b l; cases l <;> rfl
          rw [aux]
          simp
      rw [e, splitOn_join _ _ (by simp)]
      · rw [List.map_cons, (h a (by simp)).2, mapStrip_tail _ (fun b hb => (h b (by simp [hb])).2)]
      · intro f hf
        simp only [List.mem_cons, List.mem_map] at hf
        rcases hf with rfl | ⟨b, hb, rfl⟩
        · exact (h f (by simp)).1
        · simp only [List.mem_cons, not_or]
          exact ⟨by decide, (h b (by simp [hb])).1⟩
  · intro a h1 h2; unfold accessRoute; rw [h1]; simp only [h2]
  · intro h1 h2; unfold accessRoute; rw [h1]; simp only [h2]

example : accessRoute [(s%"HTTP_X_FORWARDED_FOR", s%"10.0.0.1, ::1"), (s%"REMOTE_ADDR", s%"1.2.3.4")] =
    [s%"10.0.0.1", s%"::1"] := by decide +kernel

theorem intOf_result (v : Str) : (∃ n, intOf v = .ok n) ∨ intOf v = .error .valueError := by
  unfold intOf
  split
  · split
    · exact Or.inl ⟨_, rfl⟩
    · exact Or.inr rfl
  · split
    · exact Or.inl ⟨_, rfl⟩
    · exact Or.inr rfl
  · split
    · exact Or.inl ⟨_, rfl⟩
    · exact Or.inr rfl

theorem intOf_no_digit (v : Str) (h : ∀ c ∈ v, digitVal c = none) : intOf v = .error .valueError := by
  have hgo : ∀ ds : Str, (∀ c ∈ ds, digitVal c = none) → digitsGo false 0 ds = none := by
    intro ds h
    cases ds with
    | nil => rfl
    | cons c cs => unfold digitsGo; rw [h c (by simp)]; simp
  have hsub : ∀ c ∈ strip v, c ∈ v := fun c hc => lstripP_mem _ _ _ (rstripP_mem _ _ _ hc)
  unfold intOf
  split <;> rename_i ds hds
  · rw [hgo ds fun c hc => h c (hsub c (by rw [hds]; simp [hc]))]
  · rw [hgo ds fun c hc => h c (hsub c (by rw [hds]; simp [hc]))]
  · rw [hgo _ fun c hc => h c (hsub c hc)]

/-- **C92, number of hops left.**  A header that is there is read as a number or as `None`; the
written form of any number is read as that number.  Missing from the full statement: a request
without the header, for which it is false (`C92_hops_false`). -/
theorem C92_hops_partial (environ : List (Str × Str)) :
    (∀ n : Int, Dict.get environ s%"HTTP_MAX_FORWARDS" = some (intStr n) → maxForwards environ = .ok (some n)) ∧
    (∀ v, Dict.get environ s%"HTTP_MAX_FORWARDS" = some v → ∃ r, maxForwards environ = .ok r ∧
      ((∀ c ∈ v, digitVal c = none) → r = none)) ∧
    ((∃ r, maxForwards environ = .ok r) ↔ ∃ v, Dict.get environ s%"HTTP_MAX_FORWARDS" = some v) := by
  have h2 : ∀ v, Dict.get environ s%"HTTP_MAX_FORWARDS" = some v → ∃ r, maxForwards environ = .ok r ∧
      ((∀ c ∈ v, digitVal c = none) → r = none) := by
    intro v hv
    unfold maxForwards
    rw [hv]
    simp only
    rcases intOf_result v with ⟨n, hn⟩ | hn
    · rw [hn]
      refine ⟨_, rfl, fun h => ?_⟩
      rw [intOf_no_digit v h] at hn
      simp at hn
    · rw [hn]; exact ⟨none, rfl, fun _ => rfl⟩
  refine ⟨?_, h2, ?_, ?_⟩
  · intro n hn
    unfold maxForwards
    rw [hn]
    simp only [intOf_intStr]
  · rintro ⟨r, hr⟩
    cases hg : Dict.get environ s%"HTTP_MAX_FORWARDS" with
    | none => unfold maxForwards at hr; rw [hg] at hr; simp at hr
    | some v => exact ⟨v, rfl⟩
  · rintro ⟨v, hv⟩
    obtain ⟨r, hr, _⟩ := h2 v hv
    exact ⟨r, hr⟩

/-- The full statement of `C92_hops_partial` is false: without the header the property raises. -/
theorem C92_hops_false : ¬ ∀ environ, ∃ r, maxForwards environ = .ok r := by
  intro h
  obtain ⟨r, hr⟩ := h []
  simp [maxForwards, Dict.get] at hr

/-- **C92, secure connections.**  The property that should tell whether the connection is encrypted
never does: it is `None` for every scheme. -/
theorem C92_secure_false (environ : List (Str × Str)) : isSecure environ ≠ .ok (some true) := by
  unfold isSecure; split <;> simp

/-- **C92, requests of scripts.**  A request is one of a script exactly when the header is there and
is the usual name in any case. -/
theorem C92_xhr (lower : Str → Str) (hl : ∀ s, lower (lower s) = lower s) (h0 : lower [] = []) (environ : List (Str × Str)) :
    isXhr lower environ = true ↔
      ∃ v, Dict.get environ s%"HTTP_X_REQUESTED_WITH" = some v ∧ lower v = s%"xmlhttprequest" := by
  unfold isXhr
  rw [hl, decide_eq_true_iff]
  cases Dict.get environ s%"HTTP_X_REQUESTED_WITH" with
  | none => simp [h0]
  | some v => simp

example : isXhr asciiLower [(s%"HTTP_X_REQUESTED_WITH", s%"XMLHttpRequest")] = true := by decide +kernel

/-- **C92, methods.**  The method is in upper case, whatever the case the server passes it in, and
`GET` when the server gives none. -/
theorem C92_method (upper : Str → Str) (hu : ∀ s, upper (upper s) = upper s) (hG : upper s%"GET" = s%"GET")
    (environ : List (Str × Str)) :
    upper (method upper environ) = method upper environ ∧
    (Dict.get environ s%"REQUEST_METHOD" = none → method upper environ = s%"GET") ∧
    (∀ m, Dict.get environ s%"REQUEST_METHOD" = some m → method upper environ = upper m) := by
  unfold method
  refine ⟨hu _, ?_, ?_⟩
  · intro h; rw [h]; exact hG
  · intro m h; rw [h]; rfl

end Verif.Props.ReqUrlP
