import Verif.Model.EnvironHeaders
import Verif.HeadersLemmas
import Verif.PyLemmas
import Verif.PyMore
import Verif.Props.Headers
/-!
C93: the headers of a request are the headers the client sent.
-/
namespace Verif.Props.EnvHeadersP
open Verif Verif.Py Verif.EnvironHeaders

/-- Names of headers as servers pass them on: ASCII without underscores. -/
def Name (s : Str) : Prop := ∀ c ∈ s, c.toNat < 128 ∧ c ≠ '_'

/-- The key of the environ for a header, by the rule of CGI and WSGI: the name in upper case
with underscores for hyphens, after `HTTP_` but for the two headers of the body. -/
def serverKey (name : Str) : Str :=
  if name.map Char.toLower = s%"content-type" then s%"CONTENT_TYPE"
  else if name.map Char.toLower = s%"content-length" then s%"CONTENT_LENGTH"
  else s%"HTTP_" ++ name.map fun c => if c = '-' then '_' else c.toUpper

/-- Whether a key of the environ holds a header. -/
def isHeaderKey (key : Str) : Bool :=
  s%"HTTP_".isPrefixOf key || key = s%"CONTENT_TYPE" || key = s%"CONTENT_LENGTH"

/-- Capital first letters: the title case of ASCII text.  The flag tells whether the character
before was a letter. -/
def asciiTitle : Bool → Str → Str
  | _, [] => []
  | prev, c :: s => if c.isAlpha then (if prev then c.toLower else c.toUpper) :: asciiTitle true s else c :: asciiTitle false s

/-- The three case functions do on ASCII text what they are named for. -/
structure AsciiCase (upper lower title : Str → Str) : Prop where
  upper : ∀ s : Str, (∀ c ∈ s, c.toNat < 128) → upper s = s.map Char.toUpper
  lower : ∀ s : Str, (∀ c ∈ s, c.toNat < 128) → lower s = s.map Char.toLower
  title : ∀ s : Str, (∀ c ∈ s, c.toNat < 128) → title s = asciiTitle false s

/-- The character of a key. -/
def keyChar (c : Char) : Char := if c = '-' then '_' else c.toUpper

theorem ofNat_toNat (c : Char) : Char.ofNat c.toNat = c := by simp

theorem keyChar_inj (c d : Char) (hc : c.toNat < 128) (hd : d.toNat < 128) (hc' : c ≠ '_') (hd' : d ≠ '_') :
    keyChar c = keyChar d ↔ c.toLower = d.toLower := by
  have key : ∀ m < 128, ∀ n < 128, Char.ofNat m ≠ '_' → Char.ofNat n ≠ '_' →
      (keyChar (Char.ofNat m) = keyChar (Char.ofNat n) ↔ (Char.ofNat m).toLower = (Char.ofNat n).toLower) := by decide +kernel
  have := key c.toNat hc d.toNat hd
  rw [ofNat_toNat, ofNat_toNat] at this
  exact this hc' hd'

theorem keyChar_facts (c : Char) (hc : c.toNat < 128) (hc' : c ≠ '_') :
    (if c.toUpper = '-' then '_' else c.toUpper) = keyChar c ∧
    (if keyChar c = '_' then '-' else keyChar c) = c.toUpper ∧
    (keyChar c).toNat < 128 ∧ c.toUpper.isAlpha = c.isAlpha ∧ c.toUpper.toLower = c.toLower ∧
    c.toUpper.toUpper = c.toUpper ∧ (c.isAlpha = false → c.toUpper = c) ∧ c.toUpper.toNat < 128 := by
  have key : ∀ m < 128, Char.ofNat m ≠ '_' → let c := Char.ofNat m
    (if c.toUpper = '-' then '_' else c.toUpper) = keyChar c ∧
    (if keyChar c = '_' then '-' else keyChar c) = c.toUpper ∧
    (keyChar c).toNat < 128 ∧ c.toUpper.isAlpha = c.isAlpha ∧ c.toUpper.toLower = c.toLower ∧
    c.toUpper.toUpper = c.toUpper ∧ (c.isAlpha = false → c.toUpper = c) ∧ c.toUpper.toNat < 128 := by decide +kernel
  have := key c.toNat hc
  rw [ofNat_toNat] at this
  exact this hc'

theorem lowerUpper (c : Char) (hc : c.toNat < 128) : c.toLower.toLower = c.toLower ∧ c.toLower.toNat < 128 ∧
    c.toUpper.toLower = c.toLower ∧ c.toUpper.toNat < 128 := by
  have key : ∀ m < 128, let c := Char.ofNat m
    c.toLower.toLower = c.toLower ∧ c.toLower.toNat < 128 ∧ c.toUpper.toLower = c.toLower ∧ c.toUpper.toNat < 128 := by
    decide +kernel
  have := key c.toNat hc
  rwa [ofNat_toNat] at this

theorem map_keyChar_inj : ∀ (s t : Str), Name s → Name t →
    (s.map keyChar = t.map keyChar ↔ s.map Char.toLower = t.map Char.toLower)
  | [], [], _, _ => by simp
  | [], d :: t, _, _ => by simp
  | c :: s, [], _, _ => by simp
  | c :: s, d :: t, hs, ht => by
    rw [List.map_cons, List.map_cons, List.map_cons, List.map_cons, List.cons.injEq, List.cons.injEq,
      map_keyChar_inj s t (fun x hx => hs x (by simp [hx])) (fun x hx => ht x (by simp [hx])),
      keyChar_inj c d (hs c (by simp)).1 (ht d (by simp)).1 (hs c (by simp)).2 (ht d (by simp)).2]

theorem replace_one (a b : Char) (s : Str) : Py.replace [a] [b] s = s.map fun c => if c = a then b else c := by
  rw [replace_char]
  induction s with
  | nil => rfl
  | cons c s ih =>
    rw [List.flatMap_cons, ih, List.map_cons]
    split <;> rfl

theorem serverKey_eq (s : Str) (hs : Name s) : serverKey s =
    if s.map keyChar = s%"CONTENT_TYPE" ∨ s.map keyChar = s%"CONTENT_LENGTH" then s.map keyChar
    else s%"HTTP_" ++ s.map keyChar := by
  have h1 : s.map keyChar = s%"CONTENT_TYPE" ↔ s.map Char.toLower = s%"content-type" := by
    have := map_keyChar_inj s s%"content-type" hs (by unfold Name; decide)
    rwa [show s%"content-type".map keyChar = s%"CONTENT_TYPE" by decide,
      show s%"content-type".map Char.toLower = s%"content-type" by decide] at this
  have h2 : s.map keyChar = s%"CONTENT_LENGTH" ↔ s.map Char.toLower = s%"content-length" := by
    have := map_keyChar_inj s s%"content-length" hs (by unfold Name; decide)
    rwa [show s%"content-length".map keyChar = s%"CONTENT_LENGTH" by decide,
      show s%"content-length".map Char.toLower = s%"content-length" by decide] at this
  unfold serverKey
  by_cases a : s.map keyChar = s%"CONTENT_TYPE"
  · rw [if_pos (h1.1 a), if_pos (Or.inl a), a]
  · rw [if_neg (fun h => a (h1.2 h))]
    by_cases b : s.map keyChar = s%"CONTENT_LENGTH"
    · rw [if_pos (h2.1 b), if_pos (Or.inr b), b]
    · rw [if_neg (fun h => b (h2.2 h)), if_neg (by simp [a, b])]
      rfl

section
variable {upper lower title : Str → Str} (hc : AsciiCase upper lower title)
include hc

theorem envKey_eq (s : Str) (hs : Name s) : envKey upper s = serverKey s := by
  have e : Py.replace s%"-" s%"_" (upper s) = s.map keyChar := by
    rw [hc.upper s (fun c h => (hs c h).1), replace_one, List.map_map]
    apply List.map_congr_left
    intro c h
    exact (keyChar_facts c (hs c h).1 (hs c h).2).1
  unfold envKey
  simp only [e]
  exact (serverKey_eq s hs).symm

theorem lower_eq (s t : Str) (hs : Name s) (ht : Name t) : lower s = lower t ↔ serverKey s = serverKey t := by
  rw [hc.lower s (fun c h => (hs c h).1), hc.lower t (fun c h => (ht c h).1), ← map_keyChar_inj s t hs ht,
    serverKey_eq s hs, serverKey_eq t ht]
  constructor
  · intro h; rw [h]
  · intro h
    split at h <;> split at h
    · exact h
    · rename_i h1 h2
      rcases h1 with h1 | h1 <;> rw [h1] at h <;> simp at h
    · rename_i h1 h2
      rcases h2 with h2 | h2 <;> rw [h2] at h <;> simp at h
    · exact List.append_cancel_left h

theorem asciiTitle_upper (prev : Bool) (s : Str) (hs : Name s) :
    asciiTitle prev (s.map Char.toUpper) = asciiTitle prev s := by
  clear hc
  induction s generalizing prev with
  | nil => rfl
  | cons c s ih =>
    have f := keyChar_facts c (hs c (by simp)).1 (hs c (by simp)).2
    have ih := fun b => ih b (fun d hd => hs d (by simp [hd]))
    rw [List.map_cons, asciiTitle, asciiTitle, f.2.2.2.1, ih, ih, f.2.2.2.2.1, f.2.2.2.2.2.1]
    split
    · rfl
    · rename_i h
      rw [f.2.2.2.2.2.2.1 (by simpa using h)]

theorem asciiTitle_lower (prev : Bool) (s : Str) (hs : ∀ c ∈ s, c.toNat < 128) :
    (asciiTitle prev s).map Char.toLower = s.map Char.toLower ∧ ∀ c ∈ asciiTitle prev s, c.toNat < 128 := by
  clear hc
  induction s generalizing prev with
  | nil => simp [asciiTitle]
  | cons c s ih =>
    have f := lowerUpper c (hs c (by simp))
    have ih := fun b => ih b (fun d hd => hs d (by simp [hd]))
    have h128 := hs c (by simp)
    rw [asciiTitle]
    split
    · rw [List.map_cons, List.map_cons, (ih true).1]
      refine ⟨?_, ?_⟩
      · split
        · rw [f.1]
        · rw [f.2.2.1]
      · intro d hd
        rcases List.mem_cons.1 hd with rfl | hd
        · split
          · exact f.2.1
          · exact f.2.2.2
        · exact (ih true).2 d hd
    · rw [List.map_cons, List.map_cons, (ih false).1]
      refine ⟨rfl, ?_⟩
      intro d hd
      rcases List.mem_cons.1 hd with rfl | hd
      · exact h128
      · exact (ih false).2 d hd

theorem item_eq (s v : Str) (hs : Name s) : item title (serverKey s, v) = some (asciiTitle false s, v) := by
  have e : title (Py.replace s%"_" s%"-" (s.map keyChar)) = asciiTitle false s := by
    have e1 : Py.replace s%"_" s%"-" (s.map keyChar) = s.map Char.toUpper := by
      rw [replace_one, List.map_map]
      apply List.map_congr_left
      intro c h
      exact (keyChar_facts c (hs c h).1 (hs c h).2).2.1
    rw [e1, hc.title, asciiTitle_upper hc false s hs]
    intro c h
    obtain ⟨d, hd, rfl⟩ := List.mem_map.1 h
    exact (keyChar_facts d (hs d hd).1 (hs d hd).2).2.2.2.2.2.2.2
  rw [serverKey_eq s hs]
  unfold item
  split
  · rename_i h
    rcases h with h | h
    · simp only
      rw [if_neg (by rw [h]; decide), e]
    · simp only
      rw [if_neg (by rw [h]; decide), e]
  · rename_i h
    simp only
    rw [if_pos, show (s%"HTTP_" ++ s.map keyChar).drop 5 = s.map keyChar by simp, e]
    refine ⟨by simp [List.isPrefixOf], ?_, ?_⟩
    · intro h'
      exact h (Or.inl (List.append_cancel_left (as := s%"HTTP_") h'))
    · intro h'
      exact h (Or.inr (List.append_cancel_left (as := s%"HTTP_") h'))

end

theorem serverKey_header (s : Str) : isHeaderKey (serverKey s) = true := by
  unfold serverKey
  split
  · decide
  · split
    · decide
    · simp [isHeaderKey, List.isPrefixOf]

theorem item_none (title : Str → Str) (p : Str × Str) (h : isHeaderKey p.1 = false) : item title p = none := by
  unfold isHeaderKey at h
  simp only [Bool.or_eq_false_iff, decide_eq_false_iff_not] at h
  unfold item
  rw [if_neg (by simp [h.1.1]), if_neg (by simp [h.1.2, h.2])]

theorem get_filter (environ : List (Str × Str)) (k : Str) (h : isHeaderKey k = true) :
    Dict.get environ k = Dict.get (environ.filter fun p => isHeaderKey p.1) k := by
  induction environ with
  | nil => rfl
  | cons p e ih =>
    obtain ⟨a, v⟩ := p
    rw [List.filter_cons]
    by_cases ha : a = k
    · subst ha; simp [h, Dict.get]
    · simp only [Dict.get, if_neg ha, ih]
      split
      · simp only [Dict.get, if_neg ha]
      · rfl

theorem iter_filter (title : Str → Str) (environ : List (Str × Str)) :
    iter title environ = iter title (environ.filter fun p => isHeaderKey p.1) := by
  induction environ with
  | nil => rfl
  | cons p e ih =>
    unfold iter at ih ⊢
    rw [List.filter_cons]
    split
    · rw [List.filterMap_cons, List.filterMap_cons, ih]
    · rename_i h
      rw [List.filterMap_cons, item_none title p (by simpa using h)]
      exact ih

/-- **C93.**  Let the header entries of an environ be what a server makes of the headers `sent`
by a client.  Then the headers of the request behave as a `Headers` object with those headers:
looking up a name, in any case, gives the value sent under it or nothing, all values of a name
are the values sent under it, and going over the headers gives each sent header once and in
order, with its name in title case. -/
theorem C93_view {upper lower title : Str → Str} (hc : AsciiCase upper lower title) (environ sent : List (Str × Str))
    (hn : ∀ p ∈ sent, Name p.1)
    (henv : environ.filter (fun p => isHeaderKey p.1) = sent.map fun p => (serverKey p.1, p.2)) :
    (∀ k, Name k → get upper environ k = Headers.get lower sent k ∧
      contains upper environ k = Headers.contains lower sent k ∧
      getlist lower title environ k = Headers.getlist lower sent k) ∧
    iter title environ = sent.map (fun p => (asciiTitle false p.1, p.2)) ∧
    (∀ p ∈ sent, lower (asciiTitle false p.1) = lower p.1) ∧
    len title environ = sent.length := by
  have hiter : iter title environ = sent.map (fun p => (asciiTitle false p.1, p.2)) := by
    rw [iter_filter, henv]
    unfold iter
    clear henv
    induction sent with
    | nil => rfl
    | cons p sent ih =>
      rw [List.map_cons, List.filterMap_cons, item_eq hc p.1 p.2 (hn p (by simp)), List.map_cons,
        ih (fun q hq => hn q (by simp [hq]))]
  have hlow : ∀ s, Name s → lower (asciiTitle false s) = lower s := by
    intro s hs
    have hs' : ∀ c ∈ s, c.toNat < 128 := fun c h => (hs c h).1
    rw [hc.lower _ (asciiTitle_lower hc false s hs').2, hc.lower s hs', (asciiTitle_lower hc false s hs').1]
  have hget : ∀ k, Name k → getItem upper environ k = Headers.getItem lower sent k := by
    intro k hk
    unfold getItem
    rw [envKey_eq hc k hk, get_filter _ _ (serverKey_header k), henv]
    clear henv hiter
    induction sent with
    | nil => rfl
    | cons p sent ih =>
      rw [List.map_cons, Dict.get, Headers.getItem, ih (fun q hq => hn q (by simp [hq]))]
      simp only [lower_eq hc p.1 k (hn p (by simp)) hk]
  refine ⟨?_, hiter, fun p hp => hlow p.1 (hn p hp), by unfold len; rw [hiter, List.length_map]⟩
  intro k hk
  refine ⟨hget k hk, ?_, ?_⟩
  · unfold contains Headers.contains; rw [hget k hk]
  · unfold getlist
    rw [hiter]
    clear henv hiter hget
    induction sent with
    | nil => rfl
    | cons p sent ih =>
      rw [List.map_cons, Headers.getlist, Headers.getlist, ih (fun q hq => hn q (by simp [hq])),
        hlow p.1 (hn p (by simp))]

/-- Case functions for the examples. -/
theorem demoCase : AsciiCase (fun s => s.map Char.toUpper) asciiLower (asciiTitle false) :=
  ⟨fun _ _ => rfl, fun _ _ => rfl, fun _ _ => rfl⟩

/-- An environ with three headers. -/
def demoEnviron : List (Str × Str) :=
  [(s%"REQUEST_METHOD", s%"POST"), (s%"HTTP_X_FOO", s%"1"), (s%"CONTENT_TYPE", s%"text/plain"), (s%"PATH_INFO", s%"/"),
   (s%"HTTP_HOST", s%"h")]

example : demoEnviron.filter (fun p => isHeaderKey p.1) =
      [(s%"X-Foo", s%"1"), (s%"Content-type", s%"text/plain"), (s%"host", s%"h")].map fun p => (serverKey p.1, p.2) := by
  decide +kernel

/-- The restriction to names without underscores is needed: a name with underscores is found by
a lookup but is not among the names, so that the two ways to read a header disagree. -/
theorem C93_underscore_limits : ∃ (environ : List (Str × Str)) (k : Str),
    contains (fun s => s.map Char.toUpper) environ k = true ∧ getlist asciiLower (asciiTitle false) environ k = [] :=
  ⟨demoEnviron, s%"x_foo", by decide +kernel, by decide +kernel⟩

/-- A server that also passes the headers of the body with the usual prefix does no harm: such
entries are never shown and never found. -/
theorem C93_no_duplicates (upper title : Str → Str) (environ : List (Str × Str)) (v : Str) :
    iter title ((s%"HTTP_CONTENT_TYPE", v) :: environ) = iter title environ ∧
    iter title ((s%"HTTP_CONTENT_LENGTH", v) :: environ) = iter title environ ∧
    ∀ k, get upper ((s%"HTTP_CONTENT_TYPE", v) :: environ) k = get upper environ k ∧
      get upper ((s%"HTTP_CONTENT_LENGTH", v) :: environ) k = get upper environ k := by
  have hk : ∀ k, envKey upper k ≠ s%"HTTP_CONTENT_TYPE" ∧ envKey upper k ≠ s%"HTTP_CONTENT_LENGTH" := by
    intro k
    unfold envKey
    simp only
    split
    · rename_i h
      rcases h with h | h <;> rw [h] <;> decide
    · rename_i h
      simp only [not_or] at h
      exact ⟨fun h' => h.1 (List.append_cancel_left (as := s%"HTTP_") h'),
        fun h' => h.2 (List.append_cancel_left (as := s%"HTTP_") h')⟩
  refine ⟨?_, ?_, ?_⟩
  · unfold iter; rw [List.filterMap_cons, show item title (s%"HTTP_CONTENT_TYPE", v) = none from by
      unfold item; rw [if_neg (by simp), if_neg (by simp)]]
  · unfold iter; rw [List.filterMap_cons, show item title (s%"HTTP_CONTENT_LENGTH", v) = none from by
      unfold item; rw [if_neg (by simp), if_neg (by simp)]]
  · intro k
    unfold EnvironHeaders.get getItem
    rw [Dict.get, if_neg (Ne.symm (hk k).1), Dict.get, if_neg (Ne.symm (hk k).2)]
    exact ⟨rfl, rfl⟩

end Verif.Props.EnvHeadersP
